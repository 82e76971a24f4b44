import Verif.Spec.Setlocal
import Verif.Lemmas.Env
/-
Helper lemmas for SETLOCAL/ENDLOCAL.
-/
namespace PBat
open Spec

theorem stricmp_zero {a b : List Char} : stricmp a b = 0 ↔ fold a = fold b := by
  unfold stricmp; rw [lexCmp_eq_zero, codes_inj]

theorem strcmp_zero {a b : List Char} : strcmp a b = 0 ↔ a = b := by
  unfold strcmp; rw [lexCmp_eq_zero]
  constructor
  · intro h; exact (List.map_inj_right (fun x y h => toNat_inj h)).1 h
  · intro h; rw [h]

theorem lastOf_cons (on off : List Char) (d : Bool) (w : List Char) (ws : List (List Char)) :
    lastOf on off d (w :: ws) =
      lastOf on off (if fold w = on then true else if fold w = off then false else d) ws := by
  unfold lastOf
  simp only [List.reverse_cons, List.find?_append]
  cases h : ws.reverse.find? fun w => decide (fold w = on ∨ fold w = off) with
  | some x => simp
  | none =>
    by_cases h1 : fold w = on <;> by_cases h2 : fold w = off <;> simp [h1, h2]

theorem setlocalWords_spec (ws : List (List Char)) (d c push : Bool) (h : Opens ws) :
    setlocalWords d c push ws =
      (lastOf "enabledelayedexpansion".toList "disabledelayedexpansion".toList d ws,
       lastOf "cmdlycorrect".toList "cmdlyincorrect".toList c ws, some push) := by
  induction ws generalizing d c with
  | nil => rfl
  | cons w ws ih =>
    have hw := h w (by simp)
    have ih := fun d c => ih d c fun x hx => h x (by simp [hx])
    have hq : w ≠ "/?".toList := by rintro rfl; revert hw; decide
    simp only [setlocalWords, stricmp_zero, strcmp_zero, if_neg hq, ih, lastOf_cons]
    simp only [optionWords, List.mem_cons, List.not_mem_nil, or_false] at hw
    rcases hw with hw | hw | hw | hw | hw | hw <;> rw [hw] <;> rfl

theorem setlocalWords_not (ws : List (List Char)) (d c push : Bool) (h : ¬ Opens ws) :
    (setlocalWords d c push ws).2.2 ≠ some true := by
  have key : ∀ (ws : List (List Char)) d c push, (push = false ∨ ¬ Opens ws) →
      (setlocalWords d c push ws).2.2 ≠ some true := by
    intro ws
    induction ws with
    | nil =>
      intro d c push h
      rcases h with h | h
      · subst h; simp [setlocalWords]
      · exact absurd (fun w hw => by simp at hw) h
    | cons w ws ih =>
      intro d c push h
      have hcons : fold w ∈ optionWords → (push = false ∨ ¬ Opens ws) := by
        intro hw
        rcases h with h | h
        · exact .inl h
        · refine .inr fun ho => h ?_
          intro x hx
          rcases List.mem_cons.1 hx with rfl | hx
          · exact hw
          · exact ho x hx
      simp only [setlocalWords, stricmp_zero]
      split
      · simp
      split
      · exact ih _ _ _ (.inl rfl)
      split
      · rename_i hw; exact ih _ _ _ (hcons (by rw [hw]; decide))
      split
      · rename_i hw; exact ih _ _ _ (hcons (by rw [hw]; decide))
      split
      · rename_i hw; exact ih _ _ _ (hcons (by rw [hw]; decide))
      split
      · rename_i hw; exact ih _ _ _ (hcons (by rw [hw]; decide))
      split
      · rename_i hw
        rcases hw with hw | hw <;> exact ih _ _ _ (hcons (by rw [hw]; decide))
      · simp
  exact key ws d c push (.inr h)

theorem cmdSetlocal_opens {s : LocalState} {ws : List (List Char)} {a : Nat → Int} (h : Opens ws) :
    cmdSetlocal s ws a = pushEnvStack { s with
      delayed := lastOf "enabledelayedexpansion".toList "disabledelayedexpansion".toList s.delayed ws
      cmdly := lastOf "cmdlycorrect".toList "cmdlyincorrect".toList s.cmdly ws } a := by
  unfold cmdSetlocal
  simp only [setlocalWords_spec ws _ _ _ h, if_true]

theorem cmdSetlocal_quiet {s : LocalState} {ws : List (List Char)} {a : Nat → Int} (h : ¬ Opens ws) :
    ∃ d c, cmdSetlocal s ws a = { s with delayed := d, cmdly := c } := by
  unfold cmdSetlocal
  refine ⟨(setlocalWords s.delayed s.cmdly true ws).1, (setlocalWords s.delayed s.cmdly true ws).2.1, ?_⟩
  have := setlocalWords_not ws s.delayed s.cmdly true h
  simp only [if_neg this]

theorem envDup_rep {pos : Bool} {e : EnvBuf} {M : Map} {a : Nat → Int} (h : EnvRep pos e M)
    (ha : ∀ i, SameSide pos (a i)) : EnvRep pos (envDup e a) M := by
  have hget : ∀ i (hi : i < e.vars.length), ∃ v, (envDup e a).vars[i]? = some v ∧ v.prev = [] ∧ Side pos v ∧
      enc pos v = enc pos (e.vars[i]) ∧
      (e.vars[i].name = none → v.name = none) ∧
      (∀ n, e.vars[i].name = some n → v = ⟨some ⟨a i, n.txt⟩, e.vars[i].content, false, []⟩) := by
    intro i hi
    simp only [envDup, List.getElem?_mapIdx, List.getElem?_eq_getElem hi, Option.map_some, Option.some.injEq]
    refine ⟨_, rfl, ?_⟩
    cases hn : e.vars[i].name with
    | none => exact ⟨rfl, fun n hn => (by cases hn), by simp [enc, hn], fun _ => rfl, fun n hn => (by cases hn)⟩
    | some n =>
      exact ⟨rfl, fun m hm => by cases hm; exact ha i, by simp [enc, hn], fun h => (by cases h),
        fun m hm => by cases hm; rfl⟩
  have hlen : (envDup e a).vars.length = e.vars.length := by simp [envDup]
  have hget' : ∀ i (hi : i < (envDup e a).vars.length) (hi' : i < e.vars.length),
      (envDup e a).vars[i].prev = [] ∧ Side pos (envDup e a).vars[i] ∧
      enc pos (envDup e a).vars[i] = enc pos (e.vars[i]) ∧
      (e.vars[i].name = none → (envDup e a).vars[i].name = none) ∧
      (∀ n, e.vars[i].name = some n → (envDup e a).vars[i] = ⟨some ⟨a i, n.txt⟩, e.vars[i].content, false, []⟩) := by
    intro i hi hi'
    obtain ⟨v, hv, h⟩ := hget i hi'
    obtain ⟨_, rfl⟩ := List.getElem?_eq_some_iff.1 hv
    exact h
  have hside : ∀ v ∈ (envDup e a).vars, Side pos v := by
    intro v hv
    obtain ⟨i, hi, rfl⟩ := List.getElem_of_mem hv
    exact (hget' i hi (by omega)).2.1
  refine ⟨⟨hside, ?_, ?_, ?_⟩, ?_, by rw [hlen]; exact h.fits⟩
  · rw [List.pairwise_iff_getElem]
    intro i j hi hj hij x y hx hy
    have hu := List.pairwise_iff_getElem.1 h.core.uniq i j (by omega) (by omega) hij
    have h1 := hget' i hi (by omega)
    have h2 := hget' j hj (by omega)
    cases hn1 : (e.vars[i]'(by omega)).name with
    | none => rw [h1.2.2.2.1 hn1] at hx; cases hx
    | some n1 =>
      cases hn2 : (e.vars[j]'(by omega)).name with
      | none => rw [h2.2.2.2.1 hn2] at hy; cases hy
      | some n2 =>
        rw [h1.2.2.2.2 n1 hn1] at hx
        rw [h2.2.2.2.2 n2 hn2] at hy
        cases hx; cases hy
        exact hu n1 n2 hn1 hn2
  · intro v hv
    obtain ⟨i, hi, rfl⟩ := List.getElem_of_mem hv
    exact (hget' i hi (by omega)).1
  · intro k c
    rw [h.core.map]
    constructor
    · rintro ⟨v, hv, n, hn, hf, hc⟩
      obtain ⟨i, hi, rfl⟩ := List.getElem_of_mem hv
      have hg := (hget' i (by omega) hi).2.2.2.2 n hn
      exact ⟨_, List.getElem_mem (by omega : i < (envDup e a).vars.length), ⟨a i, n.txt⟩, by rw [hg], hf, by rw [hg]; exact hc⟩
    · rintro ⟨v, hv, n, hn, hf, hc⟩
      obtain ⟨i, hi, rfl⟩ := List.getElem_of_mem hv
      have h1 := hget' i hi (by omega)
      cases hn1 : (e.vars[i]'(by omega)).name with
      | none => rw [h1.2.2.2.1 hn1] at hn; cases hn
      | some n1 =>
        have h2 := h1.2.2.2.2 n1 hn1
        rw [h2] at hn hc
        cases hn
        exact ⟨_, List.getElem_mem (by omega : i < e.vars.length), n1, hn1, hf, hc⟩
  · rw [List.pairwise_iff_getElem]
    intro i j hi hj hij
    have hs := List.pairwise_iff_getElem.1 h.sorted i j (by omega) (by omega) hij
    rw [(compName_sign (h.core.side _ (List.getElem_mem _)) (h.core.side _ (List.getElem_mem _))).le] at hs
    rw [(compName_sign (hside _ (List.getElem_mem _)) (hside _ (List.getElem_mem _))).le]
    rw [(hget' i hi (by omega)).2.2.1, (hget' j hj (by omega)).2.2.1]
    exact hs

theorem localRun_append (L : LibC) (s : LocalState) (a b : List LocalCmd) :
    localRun L s (a ++ b) = (localRun L s a).bind fun s => localRun L s b := by
  induction a generalizing s with
  | nil => rfl
  | cons c a ih =>
    simp only [List.cons_append, localRun]
    cases localStep L s c with
    | none => rfl
    | some s' => simp only [Option.bind_some]; exact ih s'

/-- A balanced sequence leaves the stack as it was; the table always represents some map. -/
theorem balanced_stack (L : LibC) (pos : Bool) {cs : List LocalCmd} (hb : Balanced cs)
    (hcs : ∀ c ∈ cs, LocalSide pos c) :
    ∀ (s : LocalState) (M : Map), EnvRep pos s.env M →
      ∃ s' M', localRun L s cs = some s' ∧ s'.stack = s.stack ∧ EnvRep pos s'.env M' := by
  induction hb with
  | nil => intro s M h; exact ⟨s, M, rfl, rfl, h⟩
  | @set n c a r _ ih =>
    intro s M h
    have hc := hcs (.set n c a) (by simp)
    obtain ⟨e', he, hR⟩ := setEnvEx_spec (L := L) (c := c) (inh := false) h hc.1 hc.2
    obtain ⟨s', M', h1, h2, h3⟩ := ih (fun x hx => hcs x (by simp [hx])) { s with env := e' } _ hR
    exact ⟨s', M', by simp only [localRun, localStep, he, Option.map_some, Option.bind_some, h1], h2, h3⟩
  | @unset n r _ ih =>
    intro s M h
    have hc := hcs (.unset n) (by simp)
    obtain ⟨s', M', h1, h2, h3⟩ := ih (fun x hx => hcs x (by simp [hx])) { s with env := unSetEnv L s.env n } _
      (unSetEnv_spec h hc)
    exact ⟨s', M', by simp only [localRun, localStep, Option.bind_some, h1], h2, h3⟩
  | @quiet ws a r hn _ ih =>
    intro s M h
    obtain ⟨d, c, hq⟩ := cmdSetlocal_quiet (s := s) (a := a) hn
    obtain ⟨s', M', h1, h2, h3⟩ := ih (fun x hx => hcs x (by simp [hx])) { s with delayed := d, cmdly := c } M h
    exact ⟨s', M', by simp only [localRun, localStep, hq, Option.bind_some, h1], h2, h3⟩
  | @nest ws a body r ho _ _ ih1 ih2 =>
    intro s M h
    have ha : LocalSide pos (.setlocal ws a) := hcs _ (by simp)
    obtain ⟨s1, M1, h1, h2, h3⟩ := ih1 (fun x hx => hcs x (by simp [hx])) (cmdSetlocal s ws a) M
      (by rw [cmdSetlocal_opens ho]; exact envDup_rep h ha)
    rw [cmdSetlocal_opens ho] at h2
    obtain ⟨s2, M2, h4, h5, h6⟩ := ih2 (fun x hx => hcs x (by simp [hx])) (popEnvStack s1) M (by
      unfold popEnvStack; rw [h2]; exact h)
    refine ⟨s2, M2, ?_, ?_, h6⟩
    · simp only [localRun, localStep, Option.bind_some, localRun_append, h1, h4]
    · rw [h5]; unfold popEnvStack; rw [h2]; rfl

end PBat
