import Verif.Model.Replace
import Verif.Spec.Replace
import Verif.Spec.Str
import Verif.Lemmas.Estr
namespace PBat
open Spec

theorem strstr_first (pat : List Char) (hp : pat ≠ []) (s : List Char) :
    IsFirst (OccursAt pat s) (strstr pat s) := by
  induction s with
  | nil =>
    simp only [strstr, hp, if_false]
    intro i h
    simp [OccursAt, hp] at h
  | cons c cs ih =>
    simp only [strstr]
    split
    · next h => exact ⟨by simpa [OccursAt] using List.isPrefixOf_iff_prefix.1 h, by omega⟩
    · next h =>
      have h0 : ¬ OccursAt pat (c :: cs) 0 := by
        simpa [OccursAt] using fun hh => h (List.isPrefixOf_iff_prefix.2 hh)
      have hs : ∀ i, OccursAt pat (c :: cs) (i + 1) ↔ OccursAt pat cs i := by intro i; simp [OccursAt]
      cases hr : strstr pat cs with
      | none =>
        rw [hr] at ih
        intro i
        cases i with
        | zero => exact h0
        | succ i => rw [hs]; exact ih i
      | some a =>
        rw [hr] at ih
        refine ⟨(hs a).2 ih.1, fun j hj => ?_⟩
        cases j with
        | zero => exact h0
        | succ j => simp only at hj; rw [hs]; exact ih.2 j (by omega)

theorem occurs_split {pat s : List Char} {i : Nat} (h : OccursAt pat s i) :
    s = s.take i ++ pat ++ s.drop (i + pat.length) := by
  obtain ⟨t, ht⟩ := h
  have : s.drop (i + pat.length) = t := by
    rw [← List.drop_drop, ← ht]; simp
  rw [this, List.append_assoc, ht, List.take_append_drop]

theorem replacePieces_spec (pat rep : List Char) (hp : pat ≠ []) (s : List Char) :
    ∃ ps, replacePieces pat rep s = .ok ps ∧ Replaced pat rep s ps.flatten := by
  induction hn : s.length using Nat.strongRecOn generalizing s with
  | _ n ih =>
    have hf := strstr_first pat hp s
    rw [replacePieces]
    simp only [hp, dite_false]
    cases hr : strstr pat s with
    | none =>
      rw [hr] at hf
      exact ⟨[s], rfl, by simpa using Replaced.none hf⟩
    | some i =>
      rw [hr] at hf
      obtain ⟨h1, h2⟩ := hf
      have hs : s ≠ [] := by rintro rfl; simp [OccursAt, hp] at h1
      have hlp : 0 < pat.length := List.length_pos_iff.2 hp
      have hls : 0 < s.length := List.length_pos_iff.2 hs
      obtain ⟨ps, e, hR⟩ := ih (s.drop (i + pat.length)).length (by simp; omega) _ rfl
      simp only [hs, dite_false, e, Res.ok_bind, Res.pure_eq]
      refine ⟨_, rfl, ?_⟩
      have hsp := occurs_split h1
      have hi : i ≤ s.length := by
        have := congrArg List.length hsp
        simp at this; omega
      have := Replaced.cut (pat := pat) (rep := rep) (pre := s.take i) (post := s.drop (i + pat.length))
        (out := ps.flatten) (by
          intro j hj
          rw [← hsp]
          exact h2 j (by simp at hj; omega)) hR
      rw [← hsp] at this
      simpa [List.append_assoc] using this

/-- The text produced by `pBat_EsReplace`. -/
def replaceText (pat rep s : List Char) : List Char :=
  match replacePieces pat rep s with
  | .ok ps => ps.flatten
  | _ => []

theorem replaceText_nil (pat rep : List Char) (hp : pat ≠ []) : replaceText pat rep [] = [] := by
  simp [replaceText, replacePieces, hp, strstr]

theorem replaceText_cons (pat rep : List Char) (hp : pat ≠ []) (c : Char) (cs : List Char) :
    replaceText pat rep (c :: cs) =
      if pat.isPrefixOf (c :: cs) then rep ++ replaceText pat rep ((c :: cs).drop pat.length)
      else c :: replaceText pat rep cs := by
  obtain ⟨ps1, e1, -⟩ := replacePieces_spec pat rep hp ((c :: cs).drop pat.length)
  obtain ⟨ps2, e2, -⟩ := replacePieces_spec pat rep hp cs
  have hps := replacePieces.eq_1 pat rep (c :: cs)
  simp only [hp, dite_false, List.cons_ne_nil] at hps
  split
  · next h =>
    have hs : strstr pat (c :: cs) = some 0 := by simp [strstr, h]
    simp only [hs, Nat.zero_add, e1, Res.ok_bind, Res.pure_eq] at hps
    simp [replaceText, hps, e1]
  · next h =>
    have hs : strstr pat (c :: cs) = (strstr pat cs).map (· + 1) := by simp [strstr, h]
    rw [replaceText, hps, hs]
    rw [replacePieces] at e2
    simp only [hp, dite_false] at e2
    cases hr : strstr pat cs with
    | none =>
      simp only [hr] at e2
      simp only [Option.map_none]
      simp [replaceText, replacePieces, hp, hr]
    | some i =>
      have hne : cs ≠ [] := by rintro rfl; simp [strstr, hp] at hr
      simp only [hr, hne, dite_false] at e2
      simp only [Option.map_some]
      have hd : (c :: cs).drop (i + 1 + pat.length) = cs.drop (i + pat.length) := by
        rw [show i + 1 + pat.length = (i + pat.length) + 1 by omega, List.drop_succ_cons]
      obtain ⟨ps3, e3, -⟩ := replacePieces_spec pat rep hp (cs.drop (i + pat.length))
      have e4 := replacePieces.eq_1 pat rep cs
      simp only [hp, hr, hne, dite_false, e3, Res.ok_bind, Res.pure_eq] at e4
      simp only [replaceText, e4, hd, e3, Res.ok_bind, Res.pure_eq, List.take_succ_cons,
        List.flatten_cons, List.cons_append]

theorem replaceText_replaced (pat rep : List Char) (hp : pat ≠ []) (s : List Char) :
    Replaced pat rep s (replaceText pat rep s) := by
  obtain ⟨ps, e, h⟩ := replacePieces_spec pat rep hp s
  simpa [replaceText, e] using h

theorem Replaced_det {pat rep s a b : List Char} (hp : pat ≠ []) (h1 : Replaced pat rep s a)
    (h2 : Replaced pat rep s b) : a = b := by
  induction h1 generalizing b with
  | @none s h =>
    cases h2 with
    | none => rfl
    | @cut pre post out h3 h4 =>
      exact absurd (by simp [OccursAt]) (h pre.length)
  | @cut pre post out h3 h4 ih =>
    generalize hs : pre ++ pat ++ post = s' at h2
    cases h2 with
    | none h =>
      subst hs
      exact absurd (by simp [OccursAt]) (h pre.length)
    | @cut pre2 post2 out2 h5 h6 =>
      have hlen : pre.length = pre2.length := by
        rcases Nat.lt_trichotomy pre.length pre2.length with h | h | h
        · refine absurd ?_ (h5 pre.length h)
          rw [← hs]; simp [OccursAt]
        · exact h
        · refine absurd ?_ (h3 pre2.length h)
          rw [hs]; simp [OccursAt]
      rw [List.append_assoc, List.append_assoc] at hs
      obtain ⟨e1, e2⟩ := List.append_inj hs hlen
      have e3 := List.append_cancel_left e2
      subst e1 e3
      rw [ih h6]

theorem catAll_spec (g : Nat → Char) (ps : List (List Char)) (e : Estr) (t : List Char) (h : Holds e t)
    (hn : ∀ p ∈ ps, NUL ∉ p) (hl : (t ++ ps.flatten).length + 1 ≤ 2 ^ 30) :
    ∃ e', catAll g e ps = some e' ∧ Holds e' (t ++ ps.flatten) := by
  induction ps generalizing e t with
  | nil => exact ⟨e, rfl, by simpa using h⟩
  | cons p ps ih =>
    simp only [List.flatten_cons, List.length_append] at hl
    rcases esStep_spec h (.cat p) (hn p (by simp)) (by rintro n rfl; omega) (fun _ => true) g with
      ⟨-, ha⟩ | ⟨e', t', hs, hA, hH⟩
    · exact absurd (fun _ => rfl) ha
    · have hA : t' = t ++ p := hA
      subst hA
      obtain ⟨e2, h2, h3⟩ := ih e' (t ++ p) hH (fun q hq => hn q (by simp [hq]))
        (by simp only [List.length_append]; omega)
      refine ⟨e2, ?_, by simpa using h3⟩
      have hs : esCat (fun _ => true) g e p = some (0, e') := hs
      simp [catAll, hs, h2]

theorem replacePieces_nonul (pat rep : List Char) (hr : NUL ∉ rep) (s : List Char) (hs : NUL ∉ s)
    (ps : List (List Char)) (h : replacePieces pat rep s = .ok ps) : ∀ p ∈ ps, NUL ∉ p := by
  induction hn : s.length using Nat.strongRecOn generalizing s ps with
  | _ n ih =>
    rw [replacePieces] at h
    by_cases hp : pat = []
    · simp [hp] at h
    · simp only [hp, dite_false] at h
      split at h
      · simp only [Res.ok.injEq] at h; subst h; simpa using hs
      · next i hi =>
        have hsn : s ≠ [] := by rintro rfl; simp [strstr, hp] at hi
        have hlp : 0 < pat.length := List.length_pos_iff.2 hp
        have hls : 0 < s.length := List.length_pos_iff.2 hsn
        simp only [hsn, dite_false] at h
        obtain ⟨ps', e, -⟩ := replacePieces_spec pat rep hp (s.drop (i + pat.length))
        simp only [e, Res.ok_bind, Res.pure_eq, Res.ok.injEq] at h
        subst h
        intro p hpm
        simp only [List.mem_cons] at hpm
        rcases hpm with rfl | rfl | hpm
        · exact fun hm => hs (List.mem_of_mem_take hm)
        · exact hr
        · exact ih _ (by simp; omega) _ (fun hm => hs (List.mem_of_mem_drop hm)) _ e rfl p hpm

theorem esCpyE_len {al : Nat → Bool} {g : Nat → Char} {e e' src : Estr} {s : List Char} (hr2 : Holds src s) {rc : Int}
    (hs : esCpyE al g e src = some (rc, e')) (k : Nat) (hk1 : 8 ≤ k) (hk2 : k ≤ 30)
    (hk3 : e.len ≤ 2 ^ k) (hk4 : s.length + 1 ≤ 2 ^ k) : e'.len ≤ 2 ^ k := by
  simp only [esCpyE, hr2.cstr, Option.bind_eq_bind, Option.bind_some] at hs
  have hk : (2 : Nat) ^ k ≤ 2 ^ 30 := Nat.pow_le_pow_right (by decide) hk2
  have hsz : sizeLoop 256 (s.length + 1) ≤ 2 ^ k :=
    sizeLoop_le 256 _ k ⟨8, by decide⟩ hk4 (by
      have : (2 : Nat) ^ 8 ≤ 2 ^ k := Nat.pow_le_pow_right (by decide) hk1
      omega)
  have hes : estrSize (s.length + 1) ≤ 2 ^ k := by
    rw [estrSize, toInt32_nat _ (by omega)]
    exact_mod_cast hsz
  unfold growInt at hs
  split at hs
  · simp at hs; obtain ⟨-, rfl⟩ := hs; exact hk3
  · next e2 heq =>
    have : e2.len ≤ 2 ^ k := by
      split at heq
      · split at heq
        · simp only [Option.some.injEq] at heq; subst heq; exact hes
        · simp at heq
      · simp only [Option.some.injEq] at heq; subst heq; exact hk3
    cases hw : wr e2.str 0 (s ++ [NUL]) with
    | none => simp [hw] at hs
    | some b =>
      simp only [hw, Option.bind_some] at hs
      simp at hs
      obtain ⟨-, rfl⟩ := hs
      exact this

/-- `pBat_EsReplace` on sound strings. -/
theorem esReplace_spec (g : Nat → Char) (e : Estr) (s pat rep : List Char) (h : Holds e s) (hp : pat ≠ [])
    (hr : NUL ∉ rep) (hl : (replaceText pat rep s).length + 1 ≤ 2 ^ 30) :
    ∃ e', esReplace g e pat rep = .ok e' ∧ Holds e' (replaceText pat rep s) ∧
      ∀ k, 8 ≤ k → k ≤ 30 → e.len ≤ 2 ^ k → (replaceText pat rep s).length + 1 ≤ 2 ^ k → e'.len ≤ 2 ^ k := by
  obtain ⟨ps, hps, -⟩ := replacePieces_spec pat rep hp s
  have hflat : replaceText pat rep s = ps.flatten := by simp [replaceText, hps]
  have hn := replacePieces_nonul pat rep hr s h.2.2.2.1 ps hps
  obtain ⟨r, hr1, hr2⟩ := catAll_spec g ps (esInit g) [] (Holds_init g) hn (by simpa [← hflat] using hl)
  simp only [List.nil_append, ← hflat] at hr2
  rcases esStep_spec h (.cpyE r) ⟨_, hr2⟩ (by rintro n ⟨u, hu, rfl⟩; rw [hu.unique hr2]; exact hl)
    (fun _ => true) g with ⟨-, ha⟩ | ⟨e', t', hs, hA, hH⟩
  · exact absurd (fun _ => rfl) ha
  · have hA : Holds r t' := hA
    have := hA.unique hr2
    subst this
    have hs : esCpyE (fun _ => true) g e r = some (0, e') := hs
    refine ⟨e', ?_, hH, ?_⟩
    · simp only [esReplace, h.cstr, hps, hr1, hs, Res.ofOption_some, Res.ok_bind, Res.pure_eq]
    · intro k hk1 hk2 hk3 hk4
      exact esCpyE_len hr2 hs k hk1 hk2 hk3 hk4

end PBat
