import Verif.Lemmas.ApplyEnv
/-
C83: a program run by the interpreter gets the variables of the interpreter.

`p` is the environment the interpreter itself was given; a program is a reader of its environment (`getenv`), for which names are taken as
they are written.
-/
namespace PBat
open Spec

/-- Every variable of the interpreter reaches the program, with its value, under a name equal up to case: whatever the table and whatever
the environment of the process. -/
theorem C83_defined (pos : Bool) (e : EnvBuf) (M : Map) (h : EnvRep pos e M) (hok : ∀ v ∈ e.vars, ∀ n, v.name = some n → NameOk n.txt)
    (p : List (List Char)) (k c : List Char) (hM : M k = some c) :
    ∃ n, fold n = k ∧ getenv (applyEnv e p) n = some c := by
  obtain ⟨v, hv, n, hn, hk, hc⟩ := (h.core.map k c).1 hM
  exact ⟨n.txt, hk, by
    rw [← hc]
    exact (applyVars_get e.vars p (hok v hv n hn).2 h.core.uniq hok).1 v hv n hn rfl⟩

/-- What the program finds under any name is a value of the interpreter, or what the interpreter was given. -/
theorem C83_found (pos : Bool) (e : EnvBuf) (M : Map) (h : EnvRep pos e M) (hok : ∀ v ∈ e.vars, ∀ n, v.name = some n → NameOk n.txt)
    (p : List (List Char)) (n c : List Char) (hn : '=' ∉ n) (hg : getenv (applyEnv e p) n = some c) :
    M (fold n) = some c ∨ (getenv p n = some c ∧ ∀ v ∈ e.vars, ∀ m, v.name = some m → m.txt ≠ n) := by
  obtain ⟨h1, h2⟩ := applyVars_get e.vars p hn h.core.uniq hok
  by_cases hx : ∃ v ∈ e.vars, ∃ m, v.name = some m ∧ m.txt = n
  · obtain ⟨v, hv, m, hm, hmn⟩ := hx
    left
    rw [show applyEnv e p = applyVars p e.vars from rfl, h1 v hv m hm hmn] at hg
    exact (h.core.map _ _).2 ⟨v, hv, m, hm, by rw [hmn], Option.some.inj hg⟩
  · have hno : ∀ v ∈ e.vars, ∀ m, v.name = some m → m.txt ≠ n := fun v hv m hm he => hx ⟨v, hv, m, hm, he⟩
    right
    rw [show applyEnv e p = applyVars p e.vars from rfl, h2 hno] at hg
    exact ⟨hg, hno⟩

/-- After every history that removes no inherited variable, the program finds exactly the variables of the interpreter.  Missing: inherited
variables that were removed (`C83_removed`), inherited values that end with blanks (`C83_blanks`), inherited names equal up to case (see
C08). -/
theorem C83_history_partial (L : LibC) (pos : Bool) (env : List CPtr) (ops : List EnvOp)
    (heq : ∀ s ∈ env, '=' ∈ s.txt) (hside : ∀ s ∈ env, SameSide pos s.addr)
    (huniq : (env.map fun s => fold (initName s.txt)).Nodup) (hname : ∀ s ∈ env, initName s.txt ≠ [])
    (hops : ∀ o ∈ ops, OpSide pos o) (hset : ∀ o ∈ ops, SetsOk o)
    (hkeep : ∀ s ∈ env, ∀ o ∈ ops, ¬ RemovesKey (fold (initName s.txt)) o) :
    ∃ e e', initEnv L env = some e ∧ runEnv L e ops = some (e', runMapExact (initMap (env.map CPtr.txt)) ops) ∧
      (∀ k c, endMap (initMap (env.map CPtr.txt)) ops k = some c →
        ∃ n, fold n = k ∧ getenv (applyEnv e' (env.map CPtr.txt)) n = some c) ∧
      ∀ n c, '=' ∉ n → getenv (applyEnv e' (env.map CPtr.txt)) n = some c →
        endMap (initMap (env.map CPtr.txt)) ops (fold n) = some c := by
  obtain ⟨e, he, hR⟩ := initEnv_spec (L := L) heq hside huniq
  have hv := initEnv_vars (L := L) heq hside he
  obtain ⟨e', h1, h2, h3, h4⟩ := runEnv_names (L := L) ops hR hops hset (by
    intro v hv' n hn
    obtain ⟨s, hs, rfl⟩ := (hv v).1 hv'
    cases hn
    obtain ⟨a, b, hab, ha⟩ := split_eq (heq s hs)
    refine ⟨hname s hs, ?_⟩
    simp only [initName, hab, takeWhile_ne ha]
    exact ha)
  refine ⟨e, e', he, h1, fun k c hM => C83_defined pos e' _ h2 h3 _ k c hM, ?_⟩
  intro n c hn hg
  rcases C83_found pos e' _ h2 h3 _ n c hn hg with h | ⟨h, hno⟩
  · exact h
  · obtain ⟨t, ht, hnt, -⟩ := getenv_some hn h
    obtain ⟨s, hs, rfl⟩ := List.mem_map.1 ht
    obtain ⟨v', hv', hvn⟩ := h4 _ ((hv _).2 ⟨s, hs, rfl⟩) _ rfl (by
      intro o ho
      exact hkeep s hs o ho)
    exact absurd hnt (hno v' hv' _ hvn)

/-- A history: a variable is changed under another case, one is added and removed again. -/
example : ∃ e e', initEnv stdLib [⟨5, "Path=/bin".toList⟩, ⟨9, "HOME=/root".toList⟩] = some e ∧
    runEnv stdLib e [.set ⟨3, "PATH".toList⟩ "/usr".toList 7 false, .set ⟨2, "X".toList⟩ "1".toList 8 false, .unset ⟨4, "x".toList⟩] =
      some (e', []) ∧
    getenv (applyEnv e' ["Path=/bin".toList, "HOME=/root".toList]) "Path".toList = some "/usr".toList ∧
    getenv (applyEnv e' ["Path=/bin".toList, "HOME=/root".toList]) "X".toList = none := by
  refine ⟨_, _, rfl, rfl, ?_, ?_⟩ <;> decide +kernel

example := C83_history_partial stdLib true [⟨5, "Path=/bin".toList⟩, ⟨9, "HOME=/root".toList⟩]
  [.set ⟨3, "PATH".toList⟩ "/usr".toList 7 false, .set ⟨2, "X".toList⟩ "1".toList 8 false, .unset ⟨4, "x".toList⟩]
  (by decide +kernel) (by decide +kernel) (by decide +kernel) (by decide +kernel) (by decide +kernel)
  (by
    intro o ho
    simp only [List.mem_cons, List.not_mem_nil, or_false] at ho
    rcases ho with rfl | rfl | rfl
    · exact .inr ⟨by decide +kernel, by decide +kernel⟩
    · exact .inr ⟨by decide +kernel, by decide +kernel⟩
    · trivial)
  (by
    intro s hs o ho
    simp only [List.mem_cons, List.not_mem_nil, or_false] at ho hs
    rcases hs with rfl | rfl <;> rcases ho with rfl | rfl | rfl
    · exact fun h => absurd h.1 (by decide +kernel)
    · exact fun h => absurd h.1 (by decide +kernel)
    · unfold RemovesKey; decide +kernel
    · exact fun h => absurd h.1 (by decide +kernel)
    · exact fun h => absurd h.1 (by decide +kernel)
    · unfold RemovesKey; decide +kernel)

/-- Violation: an inherited variable that was removed is no more a variable of the interpreter, but programs still find it, with the value
that was inherited. -/
theorem C83_removed (L : LibC) (pos : Bool) (env : List CPtr) (s : CPtr) (hs : s ∈ env) (a : Int) (ha : SameSide pos a)
    (heq : ∀ s ∈ env, '=' ∈ s.txt) (hside : ∀ s ∈ env, SameSide pos s.addr)
    (huniq : (env.map fun s => fold (initName s.txt)).Nodup) (hname : ∀ s ∈ env, initName s.txt ≠ []) :
    ∃ e e' v, initEnv L env = some e ∧ runEnv L e [.unset ⟨a, initName s.txt⟩] = some (e', []) ∧
      EnvRep pos e' ((initMap (env.map CPtr.txt)).put (fold (initName s.txt)) none) ∧
      getenv (env.map CPtr.txt) (initName s.txt) = some v ∧ s.txt = initName s.txt ++ '=' :: v ∧
      getenv (applyEnv e' (env.map CPtr.txt)) (initName s.txt) = some v := by
  obtain ⟨e, he, hR⟩ := initEnv_spec (L := L) heq hside huniq
  have hv := initEnv_vars (L := L) heq hside he
  have hok : ∀ v ∈ e.vars, ∀ n, v.name = some n → NameOk n.txt := by
    intro v hv' n hn
    obtain ⟨s, hs, rfl⟩ := (hv v).1 hv'
    cases hn
    obtain ⟨a, b, hab, ha⟩ := split_eq (heq s hs)
    refine ⟨hname s hs, ?_⟩
    simp only [initName, hab, takeWhile_ne ha]
    exact ha
  obtain ⟨n, r, hnr, hn⟩ := split_eq (heq s hs)
  have hsn : initName s.txt = n := by simp only [initName, hnr, takeWhile_ne hn]
  obtain ⟨k1, k2⟩ := unSetEnv_names (L := L) hR (n := ⟨a, initName s.txt⟩) ha
  have hR' := unSetEnv_spec (L := L) hR (n := ⟨a, initName s.txt⟩) ha
  have hg : getenv (env.map CPtr.txt) n = some r := by
    unfold getenv
    cases hf : (env.map CPtr.txt).find? (isEntry n) with
    | none =>
      exact absurd (isEntry_iff.2 ⟨r, hnr⟩) (List.find?_eq_none.1 hf s.txt (List.mem_map.2 ⟨s, hs, rfl⟩))
    | some t =>
      obtain ⟨u, hu, rfl⟩ := List.mem_map.1 (List.mem_of_find?_eq_some hf)
      obtain ⟨w, hw⟩ := isEntry_iff.1 (List.find?_some hf)
      have hun : initName u.txt = n := by simp only [initName, hw, takeWhile_ne hn]
      have : u.txt = s.txt := by
        have hfold : fold (initName u.txt) = fold (initName s.txt) := by rw [hun, hsn]
        obtain ⟨i, hi, hui⟩ := List.getElem_of_mem hu
        obtain ⟨j, hj, hsj⟩ := List.getElem_of_mem hs
        have hij : i = j := by
          have hp := List.pairwise_iff_getElem.1 (List.nodup_iff_pairwise_ne.1 huniq)
          rcases Nat.lt_trichotomy i j with h | h | h
          · exact (hp i j (by simpa using hi) (by simpa using hj) h (by simp only [List.getElem_map, hui, hsj, hfold])).elim
          · exact h
          · exact (hp j i (by simpa using hj) (by simpa using hi) h (by simp only [List.getElem_map, hui, hsj, hfold])).elim
        subst hij
        rw [← hui, ← hsj]
      rw [this, hnr]
      simp
  refine ⟨e, unSetEnv L e ⟨a, initName s.txt⟩, r, he, rfl, hR', by rw [hsn]; exact hg, by rw [hsn]; exact hnr, ?_⟩
  have hno : ∀ v ∈ (unSetEnv L e ⟨a, initName s.txt⟩).vars, ∀ m, v.name = some m → m.txt ≠ n := by
    intro v hv' m hm hmn
    have hM := (hR'.core.map (fold n) v.content).2 ⟨v, hv', m, hm, by rw [hmn], rfl⟩
    rw [hsn] at hM
    simp [Map.put] at hM
  have hok' : ∀ v ∈ (unSetEnv L e ⟨a, initName s.txt⟩).vars, ∀ m, v.name = some m → NameOk m.txt := by
    intro v hv' m hm
    obtain ⟨w, hw, hwm⟩ := k2 v hv' m hm
    exact hok w hw m hwm
  have := (applyVars_get _ (env.map CPtr.txt) hn hR'.core.uniq hok').2 hno
  rw [hg, ← hsn] at this
  exact this

example : ∃ e e' v, initEnv stdLib [⟨5, "PASSWORD=x".toList⟩] = some e ∧
    runEnv stdLib e [.unset ⟨2, "PASSWORD".toList⟩] = some (e', []) ∧
    getenv (applyEnv e' ["PASSWORD=x".toList]) "PASSWORD".toList = some v := by
  refine ⟨_, _, "x".toList, rfl, rfl, ?_⟩
  decide +kernel

/-- Violation: blanks at the end of inherited values are lost on the way, although no command touched the variable. -/
theorem C83_blanks (L : LibC) (a : Int) (n r : List Char) (hn : NameOk n) (ha : 0 < a) :
    ∃ e v, initEnv L [⟨a, n ++ '=' :: (r ++ [' '])⟩] = some e ∧ getenv [n ++ '=' :: (r ++ [' '])] n = some (r ++ [' ']) ∧
      getenv (applyEnv e [n ++ '=' :: (r ++ [' '])]) n = some v ∧ v.length ≤ r.length := by
  have heq : ∀ s ∈ [(⟨a, n ++ '=' :: (r ++ [' '])⟩ : CPtr)], '=' ∈ s.txt := by simp
  have hside : ∀ s ∈ [(⟨a, n ++ '=' :: (r ++ [' '])⟩ : CPtr)], SameSide true s.addr := by simpa [SameSide] using ha
  obtain ⟨e, he, hR⟩ := initEnv_spec (L := L) (pos := true) heq hside (by simp)
  have hv := initEnv_vars (L := L) heq hside he
  have hin : initName (n ++ '=' :: (r ++ [' '])) = n := takeWhile_ne hn.2
  have hok : ∀ v ∈ e.vars, ∀ m, v.name = some m → NameOk m.txt := by
    intro v hv' m hm
    obtain ⟨s, hs, rfl⟩ := (hv v).1 hv'
    cases hm
    rw [List.mem_singleton] at hs
    subst hs
    rw [hin]
    exact hn
  have hget := (applyVars_get e.vars [n ++ '=' :: (r ++ [' '])] hn.2 hR.core.uniq hok).1 _ ((hv _).2 ⟨_, List.mem_singleton_self _, rfl⟩)
    _ rfl hin
  refine ⟨e, _, he, ?_, hget, ?_⟩
  · have : isEntry n (n ++ '=' :: (r ++ [' '])) = true := isEntry_iff.2 ⟨_, rfl⟩
    simp [getenv, this]
  · have hd : (n ++ '=' :: (r ++ [' '])).dropWhile (· ≠ '=') = '=' :: (r ++ [' ']) := dropWhile_ne hn.2
    simp only [initValue, hd, List.drop_succ_cons, List.drop_zero, List.reverse_append, List.length_reverse]
    have : (([' '].reverse ++ r.reverse).dropWhile blank) = r.reverse.dropWhile blank := by simp [List.dropWhile, blank]
    rw [this]
    have := (List.dropWhile_sublist (p := blank) (l := r.reverse)).length_le
    simpa using this

end PBat
