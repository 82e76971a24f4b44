import Verif.Model.ApplyEnv
import Verif.Spec.ApplyEnv
import Verif.Lemmas.Env
/-
Lemmas about the environment of programs.
-/
namespace PBat
open Spec

theorem isEntry_iff {n s : List Char} : isEntry n s = true ↔ ∃ v, s = n ++ '=' :: v := by
  unfold isEntry
  rw [List.isPrefixOf_iff_prefix]
  constructor
  · rintro ⟨v, h⟩
    exact ⟨v, by rw [← h]; simp⟩
  · rintro ⟨v, rfl⟩
    exact ⟨v, by simp⟩

theorem entry_unique {n m s : List Char} (hn : '=' ∉ n) (hm : '=' ∉ m) (h1 : isEntry n s = true) (h2 : isEntry m s = true) : n = m := by
  obtain ⟨v, rfl⟩ := isEntry_iff.1 h1
  obtain ⟨w, hw⟩ := isEntry_iff.1 h2
  have h := congrArg (List.takeWhile (· ≠ '=')) hw
  rwa [takeWhile_ne hn, takeWhile_ne hm] at h

theorem getenv_put (p : List (List Char)) {n : List Char} (v m : List Char) (hn : '=' ∉ n) (hm : '=' ∉ m) :
    getenv (putEntry n v p) m = if m = n then some v else getenv p m := by
  have hself : isEntry n (n ++ '=' :: v) = true := isEntry_iff.2 ⟨v, rfl⟩
  have hne : m ≠ n → isEntry m (n ++ '=' :: v) = false := by
    intro h
    cases hb : isEntry m (n ++ '=' :: v) with
    | false => rfl
    | true => exact absurd (entry_unique hm hn hb hself) h
  induction p with
  | nil =>
    unfold getenv putEntry
    by_cases h : m = n
    · subst h; simp [hself]
    · simp [h, hne h]
  | cons s p ih =>
    unfold putEntry
    by_cases hs : isEntry n s = true
    · rw [if_pos hs]
      unfold getenv
      by_cases h : m = n
      · subst h; simp [List.find?_cons, hself]
      · have : isEntry m s = false := by
          cases hb : isEntry m s with
          | false => rfl
          | true => exact absurd (entry_unique hm hn hb hs) h
        simp [List.find?_cons, h, hne h, this]
    · rw [if_neg hs]
      unfold getenv at ih ⊢
      by_cases hms : isEntry m s = true
      · have h : m ≠ n := by rintro rfl; exact hs hms
        simp [List.find?_cons, hms, h]
      · simp only [List.find?_cons, hms]
        exact ih

theorem getenv_setenv (p : List (List Char)) {n : List Char} (v m : List Char) (hn : NameOk n) (hm : '=' ∉ m) :
    getenv (setenv p n v) m = if m = n then some v else getenv p m := by
  unfold setenv
  rw [if_neg (fun h => h.elim hn.1 hn.2)]
  exact getenv_put p v m hn.2 hm

/-- What a program finds under a name. -/
theorem applyVars_get (l : List Var) (p : List (List Char)) {m : List Char} (hm : '=' ∉ m) (hu : l.Pairwise Differ)
    (hok : ∀ v ∈ l, ∀ n, v.name = some n → NameOk n.txt) :
    (∀ v ∈ l, ∀ n, v.name = some n → n.txt = m → getenv (applyVars p l) m = some v.content) ∧
    ((∀ v ∈ l, ∀ n, v.name = some n → n.txt ≠ m) → getenv (applyVars p l) m = getenv p m) := by
  induction l generalizing p with
  | nil => exact ⟨by intro v hv; simp at hv, fun _ => rfl⟩
  | cons w l ih =>
    obtain ⟨hd, hu⟩ := List.pairwise_cons.1 hu
    have hok' : ∀ v ∈ l, ∀ n, v.name = some n → NameOk n.txt := fun v hv => hok v (by simp [hv])
    unfold applyVars
    cases hw : w.name with
    | none =>
      simp only
      obtain ⟨h1, h2⟩ := ih p hu hok'
      refine ⟨?_, fun h => h2 fun v hv => h v (by simp [hv])⟩
      intro v hv n hn hnm
      rcases List.mem_cons.1 hv with rfl | hv
      · rw [hw] at hn; cases hn
      · exact h1 v hv n hn hnm
    | some x =>
      simp only
      obtain ⟨h1, h2⟩ := ih (setenv p x.txt w.content) hu hok'
      have hx := hok w (by simp) x hw
      refine ⟨?_, ?_⟩
      · intro v hv n hn hnm
        rcases List.mem_cons.1 hv with rfl | hv
        · rw [hw] at hn; cases hn
          rw [h2, getenv_setenv p _ _ hx hm, if_pos hnm.symm]
          intro u hu' y hy hym
          exact hd u hu' _ y hw hy (by rw [hnm, hym])
        · exact h1 v hv n hn hnm
      · intro h
        rw [h2 fun v hv => h v (by simp [hv]), getenv_setenv p _ _ hx hm, if_neg]
        exact fun he => h w (by simp) x hw he.symm

/-- A set keeps the names of the other variables and adds at most its own. -/
theorem setEnvEx_names {L : LibC} {pos : Bool} {e e' : EnvBuf} {M : Map} (h : EnvRep pos e M) {n : CPtr}
    {c : List Char} {cpy : Int} {inh : Bool} (hcpy : SameSide pos cpy) (hc : c ≠ [])
    (he : setEnvEx L e n c cpy inh = some e') :
    (∀ v ∈ e.vars, ∀ m, v.name = some m → ∃ v' ∈ e'.vars, v'.name = some m) ∧
    (∀ v' ∈ e'.vars, ∀ m, v'.name = some m → (∃ v ∈ e.vars, v.name = some m) ∨ m.txt = trim n.txt) := by
  unfold setEnvEx at he
  rw [if_neg hc] at he
  have hnm : SameSide pos (CPtr.mk cpy (adjustVarName n.txt)).addr := hcpy
  simp only at he
  rcases search_name (L := L) h hnm with ⟨i, v, m, h1, h2, h3, h4, h5⟩ | ⟨h1, h2, hne⟩
  · rw [h1] at he
    simp only [h2, Option.map_some, Option.some.injEq] at he
    subst he
    obtain ⟨rest, hp, hp'⟩ := set_perm h2
    simp only [hp.mem_iff, (hp' _).mem_iff, List.mem_cons]
    refine ⟨?_, ?_⟩
    · rintro w (rfl | hw) x hx
      · exact ⟨_, .inl rfl, hx⟩
      · exact ⟨w, .inr hw, hx⟩
    · rintro w (rfl | hw) x hx
      · exact .inl ⟨v, .inl rfl, hx⟩
      · exact .inl ⟨w, .inr hw, hx⟩
  · rw [h1] at he
    simp only at he
    simp only [adjustVarName_eq] at h2 hne he
    rcases search_dead (L := L) h with ⟨i, v, h3, h4, h5⟩ | h3
    · rw [h3] at he
      simp only [h4, Option.map_some, Option.some.injEq] at he
      obtain ⟨rest, hp, hp'⟩ := set_perm h4
      have hcons : Consistent envCompName (e.vars.set i
          { name := some { addr := cpy, txt := trim n.txt }, content := c, inherit := v.inherit || inh, prev := [] }) := by
        have hcp := h.core.perm hp.symm
        have hside : ∀ w ∈ e.vars.set i
            { name := some { addr := cpy, txt := trim n.txt }, content := c, inherit := v.inherit || inh, prev := [] }, Side pos w := by
          intro w hw
          rcases List.mem_cons.1 ((hp' _).mem_iff.1 hw) with rfl | hw
          · intro x hx; cases hx; exact hcpy
          · exact hcp.side w (by simp [hw])
        exact consistent_of_signLex fun _ ha _ hb => compName_sign (hside _ ha) (hside _ hb)
      subst he
      simp only [(L.qsort_perm _ _ hcons).mem_iff, hp.mem_iff, (hp' _).mem_iff, List.mem_cons]
      refine ⟨?_, ?_⟩
      · rintro w (rfl | hw) x hx
        · rw [h5] at hx; cases hx
        · exact ⟨w, .inr hw, hx⟩
      · rintro w (rfl | hw) x hx
        · cases hx; exact .inr rfl
        · exact .inl ⟨w, .inr hw, hx⟩
    · rw [h3] at he
      simp only [Option.ite_none_right_eq_some, Option.some.injEq] at he
      obtain ⟨-, he⟩ := he
      · have hcons : Consistent envCompName (e.vars ++
            [{ name := some { addr := cpy, txt := trim n.txt }, content := c, inherit := inh, prev := [] }]) := by
          have hside : ∀ w ∈ e.vars ++
              [{ name := some { addr := cpy, txt := trim n.txt }, content := c, inherit := inh, prev := [] }], Side pos w := by
            intro w hw
            rcases List.mem_append.1 hw with hw | hw
            · exact h.core.side w hw
            · rw [List.mem_singleton] at hw; subst hw
              intro x hx; cases hx; exact hcpy
          exact consistent_of_signLex fun _ ha _ hb => compName_sign (hside _ ha) (hside _ hb)
        subst he
        simp only [(L.qsort_perm _ _ hcons).mem_iff, List.mem_append, List.mem_singleton]
        refine ⟨?_, ?_⟩
        · intro w hw x hx
          exact ⟨w, .inl hw, hx⟩
        · rintro w (hw | rfl) x hx
          · exact .inl ⟨w, hw, hx⟩
          · cases hx; exact .inr rfl

/-- A removal keeps the names of the other variables. -/
theorem unSetEnv_names {L : LibC} {pos : Bool} {e : EnvBuf} {M : Map} (h : EnvRep pos e M) {n : CPtr} (hn : SameSide pos n.addr) :
    (∀ v ∈ e.vars, ∀ m, v.name = some m → fold m.txt ≠ fold n.txt → ∃ v' ∈ (unSetEnv L e n).vars, v'.name = some m) ∧
    (∀ v' ∈ (unSetEnv L e n).vars, ∀ m, v'.name = some m → ∃ v ∈ e.vars, v.name = some m) := by
  unfold unSetEnv
  rcases search_name (L := L) h hn with ⟨i, v, m, h1, h2, h3, h4, h5⟩ | ⟨h1, h2, -⟩
  · rw [h1]
    simp only [h2, h.core.prev v (List.mem_of_getElem? h2), if_true]
    obtain ⟨rest, hp, hp'⟩ := set_perm h2
    have hcons : Consistent envCompName (e.vars.set i { name := none, content := [], inherit := v.inherit, prev := [] }) := by
      have hcp := h.core.perm hp.symm
      have hside : ∀ w ∈ e.vars.set i { name := none, content := [], inherit := v.inherit, prev := [] }, Side pos w := by
        intro w hw
        rcases List.mem_cons.1 ((hp' _).mem_iff.1 hw) with rfl | hw
        · intro x hx; cases hx
        · exact hcp.side w (by simp [hw])
      exact consistent_of_signLex fun _ ha _ hb => compName_sign (hside _ ha) (hside _ hb)
    simp only [(L.qsort_perm _ _ hcons).mem_iff, hp.mem_iff, (hp' _).mem_iff, List.mem_cons]
    refine ⟨?_, ?_⟩
    · rintro w (rfl | hw) x hx hne
      · rw [h3] at hx; cases hx; exact absurd h4 hne
      · exact ⟨w, .inr hw, hx⟩
    · rintro w (rfl | hw) x hx
      · cases hx
      · exact ⟨w, .inr hw, hx⟩
  · rw [h1]
    exact ⟨fun w hw x hx _ => ⟨w, hw, hx⟩, fun w hw x hx => ⟨w, hw, hx⟩⟩

theorem runEnv_names {L : LibC} {pos : Bool} (ops : List EnvOp) {e : EnvBuf} {M : Map} (h : EnvRep pos e M)
    (hops : ∀ o ∈ ops, OpSide pos o) (hset : ∀ o ∈ ops, SetsOk o)
    (hok : ∀ v ∈ e.vars, ∀ n, v.name = some n → NameOk n.txt) :
    ∃ e', runEnv L e ops = some (e', runMapExact M ops) ∧ EnvRep pos e' (endMap M ops) ∧
      (∀ v ∈ e'.vars, ∀ n, v.name = some n → NameOk n.txt) ∧
      (∀ v ∈ e.vars, ∀ m, v.name = some m → (∀ o ∈ ops, ¬ RemovesKey (fold m.txt) o) → ∃ v' ∈ e'.vars, v'.name = some m) := by
  induction ops generalizing e M with
  | nil => exact ⟨e, rfl, h, hok, fun v hv m hm _ => ⟨v, hv, hm⟩⟩
  | cons o ops ih =>
    have ho := hops o (by simp)
    have hs := hset o (by simp)
    have hr := fun x hx => hops x (List.mem_cons_of_mem _ hx)
    have hsr := fun x hx => hset x (List.mem_cons_of_mem _ hx)
    cases o with
    | set n c cpy inh =>
      obtain ⟨e1, he, hR⟩ := setEnvEx_spec (L := L) (c := c) (inh := inh) h ho.1 ho.2
      by_cases hc : c = []
      · have heq : e1 = unSetEnv L e n := by
          unfold setEnvEx at he
          rw [if_pos hc] at he
          exact (Option.some.inj he).symm
        obtain ⟨k1, k2⟩ := unSetEnv_names (L := L) h (n := n) ho.1
        rw [← heq] at k1 k2
        obtain ⟨e2, h2, h3, h4, h5⟩ := ih hR hr hsr (fun v hv m hm => by
          obtain ⟨w, hw, hwm⟩ := k2 v hv m hm
          exact hok w hw m hwm)
        refine ⟨e2, by simp only [runEnv, he, Option.bind_some, h2, runMapExact], h3, h4, ?_⟩
        intro v hv m hm hno
        obtain ⟨w, hw, hwm⟩ := k1 v hv m hm (fun hf => hno (.set n c cpy inh) (by simp) ⟨hc, hf.symm⟩)
        exact h5 w hw m hwm fun o ho => hno o (by simp [ho])
      · obtain ⟨k1, k2⟩ := setEnvEx_names h ho.2 hc he
        obtain ⟨e2, h2, h3, h4, h5⟩ := ih hR hr hsr (fun v hv m hm => by
          rcases k2 v hv m hm with ⟨w, hw, hwm⟩ | ht
          · exact hok w hw m hwm
          · rw [ht]; exact hs.resolve_left hc)
        refine ⟨e2, by simp only [runEnv, he, Option.bind_some, h2, runMapExact], h3, h4, ?_⟩
        intro v hv m hm hno
        obtain ⟨w, hw, hwm⟩ := k1 v hv m hm
        exact h5 w hw m hwm fun o ho => hno o (by simp [ho])
    | unset n =>
      obtain ⟨k1, k2⟩ := unSetEnv_names (L := L) h (n := n) ho
      obtain ⟨e2, h2, h3, h4, h5⟩ := ih (unSetEnv_spec (L := L) h ho) hr hsr (fun v hv m hm => by
        obtain ⟨w, hw, hwm⟩ := k2 v hv m hm
        exact hok w hw m hwm)
      refine ⟨e2, by simp only [runEnv, h2, runMapExact], h3, h4, ?_⟩
      intro v hv m hm hno
      obtain ⟨w, hw, hwm⟩ := k1 v hv m hm (fun hf => hno (.unset n) (by simp) hf.symm)
      exact h5 w hw m hwm fun o ho => hno o (by simp [ho])
    | get n =>
      obtain ⟨e2, h2, h3, h4, h5⟩ := ih h hr hsr hok
      refine ⟨e2, by simp only [runEnv, h2, runMapExact, Option.map_some, getEnv_spec h ho], h3, h4, ?_⟩
      intro v hv m hm hno
      exact h5 v hv m hm fun o ho => hno o (by simp [ho])

/-- The slots of the inherited environment. -/
theorem initEnv_vars {L : LibC} {pos : Bool} {env : List CPtr} (heq : ∀ s ∈ env, '=' ∈ s.txt) (hside : ∀ s ∈ env, SameSide pos s.addr)
    {e : EnvBuf} (he : initEnv L env = some e) (v : Var) :
    v ∈ e.vars ↔ ∃ s ∈ env, v = ⟨some ⟨s.addr, initName s.txt⟩, initValue s.txt, false, []⟩ := by
  have hmap : env.mapM initVar = some (env.map fun s =>
      { name := some { addr := s.addr, txt := initName s.txt }, content := initValue s.txt,
        inherit := false, prev := [] }) := by
    clear hside he
    induction env with
    | nil => rfl
    | cons s env ih =>
      rw [List.mapM_cons, initVar_eq (heq s (by simp)), ih (fun x hx => heq x (by simp [hx]))]
      rfl
  unfold initEnv at he
  rw [hmap] at he
  simp only [Option.map_some, Option.some.injEq] at he
  subst he
  have hcons : Consistent envCompName (env.map fun s =>
      ({ name := some { addr := s.addr, txt := initName s.txt }, content := initValue s.txt,
         inherit := false, prev := [] } : Var)) := by
    have hs : ∀ w ∈ (env.map fun s =>
      ({ name := some { addr := s.addr, txt := initName s.txt }, content := initValue s.txt,
         inherit := false, prev := [] } : Var)), Side pos w := by
      intro w hw
      obtain ⟨s, hs, rfl⟩ := List.mem_map.1 hw
      intro x hx; cases hx; exact hside s hs
    exact consistent_of_signLex fun _ ha _ hb => compName_sign (hs _ ha) (hs _ hb)
  simp only [(L.qsort_perm _ _ hcons).mem_iff, List.mem_map]
  constructor
  · rintro ⟨s, hs, rfl⟩; exact ⟨s, hs, rfl⟩
  · rintro ⟨s, hs, rfl⟩; exact ⟨s, hs, rfl⟩

/-- A name found in the environment of the interpreter is that of an inherited string. -/
theorem getenv_some {p : List (List Char)} {n c : List Char} (hn : '=' ∉ n) (h : getenv p n = some c) :
    ∃ s ∈ p, initName s = n ∧ s = n ++ '=' :: c := by
  unfold getenv at h
  obtain ⟨s, hs, rfl⟩ := Option.map_eq_some_iff.1 h
  obtain ⟨v, rfl⟩ := isEntry_iff.1 (List.find?_some hs)
  refine ⟨_, List.mem_of_find?_eq_some hs, ?_, by simp⟩
  unfold initName
  exact takeWhile_ne hn

end PBat
