import Verif.Model.Break
import Verif.Props.C52
import Verif.Props.C81
import Verif.Props.C83
/-
C89: interruption (Ctrl-C).
-/
namespace PBat
open Spec

/-- In a script the answer NO, in any case of letters, or an empty line: the script goes on, and reads its input after the answer. -/
theorem C89_no {w : AskWords} (hw : ClearWords w) (isDir : List Char → Bool) (i : Interrupted) (hs : i.script = true)
    {input t rest : List Char} (ht : Typed input t rest) (hn : Says w.no w.noA t ∨ t = []) :
    sigBreak w isDir i input = .ok (.goesOn, rest) := by
  unfold sigBreak
  rw [if_pos hs, ask_no hw ht hn]
  rfl

/-- The process is replaced if it is asked for: at the prompt, or in a script by the answer YES. -/
theorem C89_asked {w : AskWords} (hw : ClearWords w) (isDir : List Char → Bool) (i : Interrupted) {input rest : List Char}
    (h : (i.script = false ∧ rest = input) ∨ (i.script = true ∧ ∃ t, Typed input t rest ∧ Says w.yes w.yesA t)) :
    ∃ o, sigBreak w isDir i input = .ok (o, rest) ∧ o = breakRestart isDir i := by
  refine ⟨_, ?_, rfl⟩
  unfold sigBreak
  rcases h with ⟨h, rfl⟩ | ⟨h, t, ht, hy⟩
  · rw [if_neg (by simp [h])]
  · rw [if_pos h, ask_yes hw ht hy]
    rfl

theorem breakModes_word (i : Interrupted) : ∃ ls, ModesWords [breakModes i] [ls] ∧ ('e' ∈ ls ↔ i.echo = false) ∧ ('c' ∈ ls ↔ i.cmdly = true) ∧
    'q' ∈ ls ∧ ∀ c ∈ ls, c.toLower = c := by
  refine ⟨'q' :: ((if i.echo then [] else ['e']) ++ (if i.delayed then ['v'] else []) ++ if i.cmdly then ['c'] else []), ?_, ?_⟩
  · exact .cons (.colon (a := ['a']) (.inl rfl)) .nil
  · cases i.echo <;> cases i.delayed <;> cases i.cmdly <;> decide

theorem asked_low {l : Char} {ls : List Char} (h : ∀ c ∈ ls, c.toLower = c) : ModeAsked l [ls] ↔ l ∈ ls := by
  simp only [ModeAsked, List.mem_singleton, exists_eq_left]
  constructor
  · rintro ⟨c, hc, rfl⟩
    rwa [h c hc]
  · exact fun hl => ⟨l, hl, h l hl⟩

/-- How the new interpreter reads its command line: it is a prompt, quiet, with the echo and the compatibility of the one interrupted, and with
delayed expansion. -/
theorem break_startup (var : Option (List Char)) (i : Interrupted) :
    ∃ s, startup var [i.exe, breakModes i] = .run s ∧ s.file = none ∧ s.command = none ∧ s.quiet = true ∧ s.echo = i.echo ∧
      s.cmdly = i.cmdly ∧ s.delayed = true := by
  obtain ⟨ls, h1, h2, h3, h4, h5⟩ := breakModes_word i
  obtain ⟨⟨k1, k2, k3, k4, -⟩, k5, k6, k7⟩ := startedWith_modes [ls]
  refine ⟨modesOf {} [ls], ?_, k7, k5, ?_, ?_, ?_, k1⟩
  · have := getParameters_modes var h1 {} []
    simp only [List.append_nil] at this
    rw [startup, this]
    rfl
  · rw [k4 ls rfl]
    simpa [asked_low h5] using h4
  · rw [k2]
    cases hh : i.echo <;> simp [asked_low h5, h2, hh]
  · rw [k3]
    cases hh : i.cmdly <;> simp [asked_low h5, h3, hh]

theorem putEntry_mem {n v s : List Char} : ∀ {p : List (List Char)}, s ∈ putEntry n v p → s ∈ p ∨ s = n ++ '=' :: v
  | [], h => .inr (by simpa [putEntry] using h)
  | t :: p, h => by
    unfold putEntry at h
    split at h
    · rcases List.mem_cons.1 h with h | h
      · exact .inr h
      · exact .inl (by simp [h])
    · rcases List.mem_cons.1 h with h | h
      · exact .inl (by simp [h])
      · rcases putEntry_mem h with h | h
        · exact .inl (by simp [h])
        · exact .inr h

theorem applyVars_mem {s : List Char} : ∀ (l : List Var) (p : List (List Char)), s ∈ applyVars p l →
    s ∈ p ∨ ∃ v ∈ l, ∃ n, v.name = some n ∧ s = n.txt ++ '=' :: v.content
  | [], p, h => .inl h
  | v :: l, p, h => by
    unfold applyVars at h
    cases hv : v.name with
    | none =>
      rw [hv] at h
      rcases applyVars_mem l p h with h | ⟨u, hu, n, h1, h2⟩
      · exact .inl h
      · exact .inr ⟨u, by simp [hu], n, h1, h2⟩
    | some m =>
      rw [hv] at h
      rcases applyVars_mem l _ h with h | ⟨u, hu, n, h1, h2⟩
      · unfold setenv at h
        split at h
        · exact .inl h
        · rcases putEntry_mem h with h | h
          · exact .inl h
          · exact .inr ⟨v, by simp, m, hv, h⟩
      · exact .inr ⟨u, by simp [hu], n, h1, h2⟩

theorem rstrip_id (p : Char → Bool) {c : List Char} (h : ∀ x, c.getLast? = some x → p x = false) : (c.reverse.dropWhile p).reverse = c := by
  cases hc : c.reverse with
  | nil => rw [List.reverse_eq_nil_iff] at hc; simp [hc]
  | cons x r =>
    have hl : c.getLast? = some x := by rw [List.getLast?_eq_head?_reverse, hc]; rfl
    rw [List.dropWhile_cons_of_neg (by simp [h x hl]), ← hc, List.reverse_reverse]

theorem find?_congr_mem {α : Type} {p q : α → Bool} : ∀ {l : List α}, (∀ x ∈ l, p x = q x) → l.find? p = l.find? q
  | [], _ => rfl
  | x :: l, h => by
    rw [List.find?_cons, List.find?_cons, h x (by simp), find?_congr_mem fun y hy => h y (by simp [hy])]

theorem differ_or_eq : ∀ {l : List Var}, l.Pairwise Differ → ∀ v ∈ l, ∀ u ∈ l, v = u ∨ Differ v u
  | [], _, v, hv, _, _ => by cases hv
  | x :: l, h, v, hv, u, hu => by
    obtain ⟨h1, h2⟩ := List.pairwise_cons.1 h
    rcases List.mem_cons.1 hv with rfl | hv' <;> rcases List.mem_cons.1 hu with rfl | hu'
    · exact .inl rfl
    · exact .inr (h1 u hu')
    · exact .inr (h1 v hv').symm
    · exact differ_or_eq h2 v hv' u hu'

/-- What an environment made by `applyEnv` says to a new interpreter. -/
theorem initMap_apply {pos : Bool} {e : EnvBuf} {M : Map} (h : EnvRep pos e M) (hok : ∀ v ∈ e.vars, ∀ n, v.name = some n → NameOk n.txt)
    (p : List (List Char)) (hp : ∀ s ∈ p, ∃ v ∈ e.vars, ∃ m, v.name = some m ∧ m.txt = initName s) (hpe : ∀ s ∈ p, '=' ∈ s)
    (hb : ∀ k c x, M k = some c → c.getLast? = some x → blank x = false) : initMap (applyEnv e p) = M := by
  have names : ∀ s ∈ applyEnv e p, ∃ v ∈ e.vars, ∃ m, v.name = some m ∧ m.txt = initName s := by
    intro s hs
    rcases applyVars_mem _ _ hs with hs | ⟨v, hv, n, hn, rfl⟩
    · exact hp s hs
    · exact ⟨v, hv, n, hn, by simp only [initName, takeWhile_ne (hok v hv n hn).2]⟩
  have eqs : ∀ s ∈ applyEnv e p, '=' ∈ s := by
    intro s hs
    rcases applyVars_mem _ _ hs with hs | ⟨v, hv, n, hn, rfl⟩
    · exact hpe s hs
    · simp
  have same : ∀ v ∈ e.vars, ∀ u ∈ e.vars, ∀ n m, v.name = some n → u.name = some m → fold n.txt = fold m.txt → v = u := by
    intro v hv u hu n m hn hm hf
    rcases differ_or_eq h.core.uniq v hv u hu with h | h
    · exact h
    · exact absurd hf (h n m hn hm)
  funext k
  unfold initMap
  cases hM : M k with
  | none =>
    have : (applyEnv e p).find? (fun s => fold (initName s) = k) = none := by
      rw [List.find?_eq_none]
      intro s hs hk
      obtain ⟨v, hv, m, hm, hmt⟩ := names s hs
      have : M k = some v.content := (h.core.map k _).2 ⟨v, hv, m, hm, by rw [hmt]; simpa using hk, rfl⟩
      rw [hM] at this
      cases this
    rw [this]
    rfl
  | some c =>
    obtain ⟨v, hv, n, hn, hk, hc⟩ := (h.core.map k c).1 hM
    have hne := (hok v hv n hn).2
    have hg : getenv (applyEnv e p) n.txt = some c := by
      rw [← hc]
      exact (applyVars_get e.vars p hne h.core.uniq hok).1 v hv n hn rfl
    have hfind : (applyEnv e p).find? (fun s => fold (initName s) = k) = (applyEnv e p).find? (isEntry n.txt) := by
      apply find?_congr_mem
      intro s hs
      obtain ⟨a, b, hab, ha⟩ := split_eq (eqs s hs)
      have hin : initName s = a := by simp only [initName, hab, takeWhile_ne ha]
      rw [Bool.eq_iff_iff, decide_eq_true_iff, isEntry_iff, hin]
      constructor
      · intro hf
        obtain ⟨u, hu, m, hm, hmt⟩ := names s hs
        rw [hin] at hmt
        have := same v hv u hu n m hn hm (by rw [hk, hmt, hf])
        subst this
        rw [hn] at hm
        cases hm
        exact ⟨b, by rw [hab, hmt]⟩
      · rintro ⟨r, hr⟩
        have : initName s = n.txt := by simp only [initName, hr, takeWhile_ne hne]
        rw [← hin, this, hk]
    rw [hfind]
    unfold getenv at hg
    obtain ⟨s, hs, hsv⟩ := Option.map_eq_some_iff.1 hg
    rw [hs, Option.map_some]
    obtain ⟨r, rfl⟩ := isEntry_iff.1 (List.find?_some hs)
    have hr : r = c := by
      rw [← hsv]
      simp
    subst hr
    congr 1
    unfold initValue
    have hd : (n.txt ++ '=' :: r).dropWhile (· ≠ '=') = '=' :: r := by
      rw [List.dropWhile_append_of_pos (by intro x hx; simpa using fun he => hne (by rw [← he]; exact hx))]
      rw [List.dropWhile_cons_of_neg (by simp)]
    rw [hd]
    exact rstrip_id blank (fun x hx => hb k r x hM hx)

/-- Where the values of a history come from. -/
theorem endMap_from {k c : List Char} : ∀ (ops : List EnvOp) (M : Map), endMap M ops k = some c →
    M k = some c ∨ ∃ n a b, EnvOp.set n c a b ∈ ops
  | [], M, h => .inl h
  | .set n d a b :: ops, M, h => by
    rw [endMap] at h
    rcases endMap_from ops _ h with h | ⟨n', a', b', h⟩
    · split at h
      · unfold Map.put at h
        split at h
        · cases h
        · exact .inl h
      · unfold Map.put at h
        split at h
        · cases h
          exact .inr ⟨n, a, b, by simp⟩
        · exact .inl h
    · exact .inr ⟨n', a', b', by simp [h]⟩
  | .unset n :: ops, M, h => by
    rw [endMap] at h
    rcases endMap_from ops _ h with h | ⟨n', a', b', h⟩
    · unfold Map.put at h
      split at h
      · cases h
      · exact .inl h
    · exact .inr ⟨n', a', b', by simp [h]⟩
  | .get n :: ops, M, h => by
    rw [endMap] at h
    rcases endMap_from ops _ h with h | ⟨n', a', b', h⟩
    · exact .inl h
    · exact .inr ⟨n', a', b', by simp [h]⟩

theorem initMap_last {env : List (List Char)} {k c : List Char} {x : Char} (h : initMap env k = some c) (hx : c.getLast? = some x) :
    blank x = false := by
  unfold initMap at h
  obtain ⟨s, -, rfl⟩ := Option.map_eq_some_iff.1 h
  unfold initValue at hx
  rw [List.getLast?_reverse] at hx
  have := List.head?_dropWhile_not blank ((s.dropWhile (· ≠ '=')).drop 1).reverse
  rw [hx] at this
  simpa using this

/-- The interpreter after an interruption has the directory, the echo, the compatibility and exactly the variables of the one interrupted, after
every history of the variables; it is a quiet prompt.  Partial: delayed expansion disabled by a script (`C89_delayed`), variables inherited and
removed (`C89_removed`), values that end with a blank (`C89_blank`), a directory removed meanwhile. -/
theorem C89_restart_partial {w : AskWords} (hw : ClearWords w) (isDir : List Char → Bool) (i : Interrupted) {input rest : List Char}
    (hask : (i.script = false ∧ rest = input) ∨ (i.script = true ∧ ∃ t, Typed input t rest ∧ Says w.yes w.yesA t))
    (hdir : isDir i.dir = true) (var : Option (List Char)) (L : LibC) (pos : Bool) (env : List CPtr) (ops : List EnvOp)
    (henv : i.environ = env.map CPtr.txt) (heq : ∀ s ∈ env, '=' ∈ s.txt) (hside : ∀ s ∈ env, SameSide pos s.addr)
    (huniq : (env.map fun s => fold (initName s.txt)).Nodup) (hname : ∀ s ∈ env, initName s.txt ≠ [])
    (hops : ∀ o ∈ ops, OpSide pos o) (hset : ∀ o ∈ ops, SetsOk o)
    (hkeep : ∀ s ∈ env, ∀ o ∈ ops, ¬ RemovesKey (fold (initName s.txt)) o)
    (hhist : ∃ e r, initEnv L env = some e ∧ runEnv L e ops = some (i.env, r))
    (hb : ∀ n c a b x, .set n c a b ∈ ops → c.getLast? = some x → x ≠ ' ' ∧ x ≠ '\t') :
    ∃ argv environ s, sigBreak w isDir i input = .ok (.restarts argv environ i.dir, rest) ∧
      startup var argv = .run s ∧ s.file = none ∧ s.command = none ∧ s.quiet = true ∧ s.echo = i.echo ∧ s.cmdly = i.cmdly ∧
      (i.delayed = true → s.delayed = true) ∧ initMap environ = endMap (initMap (env.map CPtr.txt)) ops := by
  obtain ⟨e, he, hR⟩ := initEnv_spec (L := L) heq hside huniq
  have hv := initEnv_vars (L := L) heq hside he
  obtain ⟨e', h1, h2, h3, h4⟩ := runEnv_names (L := L) ops hR hops hset (by
    intro v hv' n hn
    obtain ⟨s, hs, rfl⟩ := (hv v).1 hv'
    cases hn
    obtain ⟨a, b, hab, ha⟩ := split_eq (heq s hs)
    refine ⟨hname s hs, ?_⟩
    simp only [initName, hab, takeWhile_ne ha]
    exact ha)
  obtain ⟨e0, r, he0, hr⟩ := hhist
  rw [he] at he0
  cases he0
  rw [h1] at hr
  cases hr
  obtain ⟨s, k1, k2, k3, k4, k5, k6, k7⟩ := break_startup var i
  obtain ⟨o, ho, rfl⟩ := C89_asked hw isDir i hask
  refine ⟨_, _, s, by rw [ho, breakRestart, if_pos hdir], k1, k2, k3, k4, k5, k6, fun _ => k7, ?_⟩
  rw [henv]
  refine initMap_apply h2 h3 _ ?_ ?_ ?_
  · intro t ht
    obtain ⟨s, hs, rfl⟩ := List.mem_map.1 ht
    obtain ⟨v', hv', hvn⟩ := h4 _ ((hv _).2 ⟨s, hs, rfl⟩) _ rfl (fun o ho => hkeep s hs o ho)
    exact ⟨v', hv', _, hvn, rfl⟩
  · intro t ht
    obtain ⟨s, hs, rfl⟩ := List.mem_map.1 ht
    exact heq s hs
  · intro k c x hk hx
    rcases endMap_from ops _ hk with hk | ⟨n, a, b, hm⟩
    · exact initMap_last hk hx
    · obtain ⟨b1, b2⟩ := hb n c a b x hm hx
      simp [blank, b1, b2]

/-- Violation: delayed expansion disabled is enabled again. -/
theorem C89_delayed (isDir : List Char → Bool) (i : Interrupted) (hd : i.delayed = false) (var : Option (List Char)) :
    ∃ argv environ cwd s, breakRestart isDir i = .restarts argv environ cwd ∧ startup var argv = .run s ∧ s.delayed ≠ i.delayed := by
  obtain ⟨s, k1, -, -, -, -, -, k7⟩ := break_startup var i
  exact ⟨_, _, _, s, rfl, k1, by simp [k7, hd]⟩

/-- Violation: an inherited variable removed is there again. -/
theorem C89_removed (isDir : List Char → Bool) (i : Interrupted) (L : LibC) (pos : Bool) (env : List CPtr) (s : CPtr) (hs : s ∈ env) (a : Int)
    (ha : SameSide pos a) (heq : ∀ s ∈ env, '=' ∈ s.txt) (hside : ∀ s ∈ env, SameSide pos s.addr)
    (huniq : (env.map fun s => fold (initName s.txt)).Nodup) (hname : ∀ s ∈ env, initName s.txt ≠ []) :
    ∃ e e' M, initEnv L env = some e ∧ runEnv L e [.unset ⟨a, initName s.txt⟩] = some (e', []) ∧
      EnvRep pos e' M ∧ M (fold (initName s.txt)) = none ∧
      ∃ argv environ cwd c, breakRestart isDir { i with env := e', environ := env.map CPtr.txt } = .restarts argv environ cwd ∧
        initMap environ (fold (initName s.txt)) = some c := by
  obtain ⟨e, e', v, h1, h2, h3, h4, h5, h6⟩ := C83_removed L pos env s hs a ha heq hside huniq hname
  refine ⟨e, e', _, h1, h2, h3, by simp [Map.put], [i.exe, breakModes { i with env := e', environ := env.map CPtr.txt }],
    applyEnv e' (env.map CPtr.txt), if isDir i.dir then i.dir else i.cwd, ?_⟩
  have hne : '=' ∉ initName s.txt := by
    obtain ⟨x, b, hab, hx⟩ := split_eq (heq s hs)
    simp only [initName, hab, takeWhile_ne hx]
    exact hx
  obtain ⟨t, ht, htn, -⟩ := getenv_some hne h6
  cases hf : (applyEnv e' (env.map CPtr.txt)).find? (fun x => fold (initName x) = fold (initName s.txt)) with
  | none =>
    exact absurd (by simp [htn]) (List.find?_eq_none.1 hf t ht)
  | some u => exact ⟨initValue u, rfl, by unfold initMap; simp only [hf, Option.map_some]⟩

/-- Violation: blanks at the end of a value are lost. -/
theorem C89_blank (isDir : List Char → Bool) (i : Interrupted) {n : CPtr} {c : List Char} (hn : NameOk n.txt)
    (henv : i.env.vars = [⟨some n, c ++ [' '], false, []⟩]) (hp : i.environ = []) :
    ∃ argv environ cwd v, breakRestart isDir i = .restarts argv environ cwd ∧ initMap environ (fold n.txt) = some v ∧ v.length ≤ c.length := by
  refine ⟨_, _, _, ((c ++ [' ']).reverse.dropWhile blank).reverse, rfl, ?_, ?_⟩
  · have hx : ¬ (n.txt = [] ∨ '=' ∈ n.txt) := fun h => h.elim hn.1 hn.2
    have hd : (n.txt ++ '=' :: (c ++ [' '])).dropWhile (· ≠ '=') = '=' :: (c ++ [' ']) := by
      rw [List.dropWhile_append_of_pos (by intro x hx; simpa using fun he => hn.2 (by rw [← he]; exact hx))]
      rw [List.dropWhile_cons_of_neg (by simp)]
    have hin : initName (n.txt ++ '=' :: (c ++ [' '])) = n.txt := by simp only [initName, takeWhile_ne hn.2]
    simp only [applyEnv, henv, hp, applyVars, setenv, if_neg hx, putEntry, initMap, List.find?_cons, hin, decide_true, Option.map_some, initValue, hd,
      List.drop_succ_cons, List.drop_zero]
  · rw [List.reverse_append, List.length_reverse]
    show (List.dropWhile blank (' ' :: c.reverse)).length ≤ _
    rw [List.dropWhile_cons_of_pos (by decide)]
    exact Nat.le_trans (List.dropWhile_sublist _).length_le (by simp)

/-- Violation: an answer that is none of those known is not asked for again: a variable never set decides. -/
theorem C89_answer {w : AskWords} (isDir : List Char → Bool) (i : Interrupted) (hs : i.script = true) {input t rest : List Char}
    (ht : Typed input t rest) (hl : t.length < 30) (hy : ¬ Says w.yes w.yesA t) (hn : ¬ Says w.no w.noA t) (he : t ≠ []) :
    sigBreak w isDir i input = .ub := by
  have : askConfirmation w false 2 true input = .ub := by
    unfold askConfirmation
    rw [askRead_typed ht, Res.ok_bind, List.take_of_length_le (by omega)]
    simp only [stricmp_zero]
    unfold Says at hy hn
    rw [if_neg hy, if_neg hn, if_neg (by simp), if_neg (fun h => he h.2), if_neg (by simp)]
  unfold sigBreak
  rw [if_pos hs, this, Res.ub_bind]

/-- Violation: at the end of the input there is no answer, and the question never ends. -/
theorem C89_end {w : AskWords} (isDir : List Char → Bool) (i : Interrupted) (hs : i.script = true) {input : List Char} (h : '\n' ∉ input) :
    ∀ r, sigBreak w isDir i input ≠ .ok r := by
  have : askConfirmation w false 2 true input = .ub ∨ askConfirmation w false 2 true input = .hang := by
    unfold askConfirmation askRead
    rw [askReadLoop_eof input false h]
    by_cases h0 : input = [] <;> simp [h0, Res.ub_bind, Res.hang_bind]
  intro r
  unfold sigBreak
  rw [if_pos hs]
  rcases this with e | e <;> rw [e] <;> intro hh <;> cases hh

/-! ### Examples -/

/-- The words of English. -/
def askEnglish : AskWords := ⟨['y', 'e', 's'], ['y'], ['n', 'o'], ['n'], ['a', 'l', 'l'], ['a']⟩

theorem askEnglish_clear : ClearWords askEnglish where
  ne := by decide +kernel
  yn := by
    rintro t (h | h) (h' | h') <;> rw [h] at h' <;> revert h' <;> decide +kernel
  ya := by
    rintro t (h | h) (h' | h') <;> rw [h] at h' <;> revert h' <;> decide +kernel
  na := by
    rintro t (h | h) (h' | h') <;> rw [h] at h' <;> revert h' <;> decide +kernel

/-- A script interrupted: a variable was changed, one added; echo is off. -/
def sampleBreak : Interrupted :=
  ⟨true, false, true, true, "/bin/pbat".toList, "/tmp".toList,
    (((initEnv stdLib [⟨5, "Path=/bin".toList⟩, ⟨9, "HOME=/root".toList⟩]).bind fun e =>
      runEnv stdLib e [.set ⟨3, "PATH".toList⟩ "/usr".toList 7 false, .set ⟨2, "X".toList⟩ "1".toList 8 false]).map (·.1) |>.getD ⟨0, []⟩),
    ["Path=/bin".toList, "HOME=/root".toList], "/".toList⟩

example : sigBreak askEnglish (fun _ => true) sampleBreak "Yes\r\nrest".toList =
    .ok (.restarts ["/bin/pbat".toList, "/a:qevc".toList] ["Path=/usr".toList, "HOME=/root".toList, "X=1".toList] "/tmp".toList,
      "rest".toList) := by decide +kernel

example := C89_restart_partial askEnglish_clear (fun _ => true) sampleBreak (input := "Yes\r\nrest".toList) (rest := "rest".toList)
  (.inr ⟨rfl, "Yes".toList, ⟨"Yes\r".toList, by decide +kernel, by decide +kernel, by decide +kernel⟩, .inl (by decide +kernel)⟩) rfl none stdLib true
  [⟨5, "Path=/bin".toList⟩, ⟨9, "HOME=/root".toList⟩]
  [.set ⟨3, "PATH".toList⟩ "/usr".toList 7 false, .set ⟨2, "X".toList⟩ "1".toList 8 false] (by decide +kernel) (by decide +kernel)
  (by decide +kernel) (by decide +kernel) (by decide +kernel) (by decide +kernel)
  (by
    intro o ho
    simp only [List.mem_cons, List.not_mem_nil, or_false] at ho
    rcases ho with rfl | rfl <;> exact .inr ⟨by decide +kernel, by decide +kernel⟩)
  (by
    intro s hs o ho
    simp only [List.mem_cons, List.not_mem_nil, or_false] at ho hs
    rcases hs with rfl | rfl <;> rcases ho with rfl | rfl <;> exact fun h => absurd h.1 (by decide +kernel))
  ⟨_, _, rfl, rfl⟩
  (by
    intro n c a b x hm hx
    simp only [List.mem_cons, List.not_mem_nil, or_false, EnvOp.set.injEq] at hm
    rcases hm with ⟨-, rfl, -⟩ | ⟨-, rfl, -⟩ <;> cases hx <;> decide)

example : sigBreak askEnglish (fun _ => true) sampleBreak "\nrest".toList = .ok (.goesOn, "rest".toList) := by decide +kernel

end PBat
