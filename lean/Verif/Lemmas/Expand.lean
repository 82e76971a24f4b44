import Verif.Model.Expand
import Verif.Spec.Expand
import Verif.Lemmas.Str
import Verif.Lemmas.Var
/-
Helper lemmas for line expansion.
-/
namespace PBat
open Spec

/-! ### Quotes -/

theorem beforeLast_eq {q : Char} {a b : List Char} (h : q ∉ b) : beforeLast q (a ++ q :: b) = a := by
  unfold beforeLast
  rw [if_pos (by simp)]
  have hb : ∀ c ∈ b.reverse, (c != q) = true := by
    intro c hc
    simp only [List.mem_reverse] at hc
    simp only [bne_iff_ne, ne_eq]
    rintro rfl; exact h hc
  rw [List.reverse_append, List.reverse_cons, List.append_assoc, List.dropWhile_append_of_pos hb]
  simp

theorem exists_last {q : Char} {r : List Char} (h : q ∈ r) : ∃ a b, r = a ++ q :: b ∧ q ∉ b := by
  induction r with
  | nil => simp at h
  | cons c r ih =>
    by_cases hr : q ∈ r
    · obtain ⟨a, b, rfl, hb⟩ := ih hr
      exact ⟨c :: a, b, rfl, hb⟩
    · simp only [List.mem_cons, hr, or_false] at h
      subst h
      exact ⟨[], r, rfl, hr⟩

theorem stripQuotes_spec (v : List Char) : Unquoted v (stripQuotes v) := by
  unfold stripQuotes
  split
  · exact .bare (by simp) (by simp)
  · rename_i q r
    by_cases hq : (q == '"' || q == '\'') = true
    · rw [if_pos hq]
      have hq' : q = '"' ∨ q = '\'' := by simpa using hq
      split
      · rename_i hm
        obtain ⟨a, b, rfl, hb⟩ := exists_last hm
        rw [beforeLast_eq hb]
        exact .both hq' hb
      · rename_i hm
        exact .opening hq' hm
    · rw [if_neg hq]
      have hq' : ¬(q = '"' ∨ q = '\'') := by simpa using hq
      exact .bare (by simpa using fun h => hq' (.inl h)) (by simpa using fun h => hq' (.inr h))

theorem stripQuotes_iff (v u : List Char) : Unquoted v u ↔ u = stripQuotes v := by
  constructor
  · intro h
    cases h with
    | @both q a b hq hb =>
      have hq' : (q == '"' || q == '\'') = true := by simpa using hq
      simp only [stripQuotes, if_pos hq']
      rw [if_pos (by simp), beforeLast_eq hb]
    | @opening q a hq ha =>
      have hq' : (q == '"' || q == '\'') = true := by simpa using hq
      simp only [stripQuotes, if_pos hq']
      rw [if_neg ha]
    | bare h1 h2 =>
      unfold stripQuotes
      split
      · rfl
      · rename_i q r
        simp only [List.head?_cons, ne_eq, Option.some.injEq] at h1 h2
        rw [if_neg (by simp [h1, h2])]
  · rintro rfl; exact stripQuotes_spec v

/-! ### References to local variables -/

theorem localName_iff (c : Char) : localName c = true ↔ ArgName c := by
  unfold localName ArgName
  simp

theorem isModifier_iff (c : Char) : isModifier c = true ↔ c ∈ ['f', 'd', 'n', 'p', 'x', 'z', 't', 'a'] := by
  unfold isModifier
  rw [List.contains_iff_mem]; rfl

theorem modifier_name {c : Char} (h : isModifier c = true) : localName c = true := by
  rw [isModifier_iff] at h
  simp only [List.mem_cons, List.not_mem_nil, or_false] at h
  rcases h with rfl | rfl | rfl | rfl | rfl | rfl | rfl | rfl <;> decide

/-- A reading of the text after the tilde: `i` modifiers and a defined variable. -/
def Reading (b : LocalBlock) (r : List Char) (i : Nat) (n : Char) (v : List Char) : Prop :=
  Modifiers (r.take i) ∧ r[i]? = some n ∧ Defined b n v

theorem backtrack_spec (b : LocalBlock) (fl : List Char) (k : Nat) :
    IsLast (fun i => i < k ∧ ∃ f, fl[i]? = some f ∧ (b f).isSome) (backtrack b fl k) := by
  induction k with
  | zero => intro i h; omega
  | succ k ih =>
    have step : (¬ ∃ f, fl[k]? = some f ∧ (b f).isSome) →
        IsLast (fun i => i < k + 1 ∧ ∃ f, fl[i]? = some f ∧ (b f).isSome) (backtrack b fl k) := by
      intro hk
      cases hb : backtrack b fl k with
      | none =>
        rw [hb] at ih
        rintro i ⟨hi, hf⟩
        by_cases hik : i = k
        · exact hk (hik ▸ hf)
        · exact ih i ⟨by omega, hf⟩
      | some j =>
        rw [hb] at ih
        refine ⟨⟨by have := ih.1.1; omega, ih.1.2⟩, ?_⟩
        rintro i hji ⟨hi, hf⟩
        by_cases hik : i = k
        · exact hk (hik ▸ hf)
        · exact ih.2 i hji ⟨by omega, hf⟩
    unfold backtrack
    cases hf : fl[k]? with
    | none => exact step (by simp [hf])
    | some f =>
      by_cases hd : (b f).isSome
      · simp only [if_pos hd]
        exact ⟨⟨by omega, f, hf, hd⟩, by rintro i h1 ⟨h2, -⟩; omega⟩
      · simp only [if_neg hd]
        exact step (by simp [hf, hd])

theorem takeWhile_take_self {p : Char → Bool} (l : List Char) : l.takeWhile p = l.take (l.takeWhile p).length := by
  induction l with
  | nil => rfl
  | cons c l ih =>
    by_cases h : p c
    · rw [List.takeWhile_cons_of_pos h, List.length_cons, List.take_succ_cons, ← ih]
    · rw [List.takeWhile_cons_of_neg h]; rfl

theorem takeWhile_len_ge {p : Char → Bool} (l : List Char) (i : Nat) (hi : i ≤ l.length)
    (h : ∀ c ∈ l.take i, p c = true) : i ≤ (l.takeWhile p).length := by
  induction l generalizing i with
  | nil => simpa using hi
  | cons c l ih =>
    cases i with
    | zero => omega
    | succ i =>
      rw [List.takeWhile_cons_of_pos (h c (by simp))]
      simp only [List.length_cons]
      have := ih i (by simpa using hi) (fun x hx => h x (by simp [hx]))
      omega

/-- The reading chosen after a tilde. -/
theorem getLocalVar_tilde (b : LocalBlock) (mods : List Char → Char → List Char → List Char) (r : List Char) :
    (getLocalVar b mods ('~' :: r) = none ∧ ∀ i n v, ¬ Reading b r i n v) ∨
    ∃ i n v, Reading b r i n v ∧ (∀ j m w, Reading b r j m w → j ≤ i) ∧
      getLocalVar b mods ('~' :: r) =
        some (if r.take i = [] then stripQuotes v else mods (r.take i) n (stripQuotes v), i + 2) := by
  unfold getLocalVar
  simp only [bne_self_eq_false, Bool.false_eq_true, if_false]
  have hpre : (r.take 16).takeWhile isModifier = r.take ((r.take 16).takeWhile isModifier).length := by
    conv => lhs; rw [takeWhile_take_self, List.take_take]
    have := (List.takeWhile_sublist isModifier (l := r.take 16)).length_le
    simp only [List.length_take] at this
    rw [Nat.min_eq_left (by omega)]
  have hall : ∀ f ∈ (r.take 16).takeWhile isModifier, isModifier f = true := by
    intro f hf
    have := List.all_takeWhile (l := r.take 16) (p := isModifier)
    rw [List.all_eq_true] at this
    exact this f hf
  have hm16 : ((r.take 16).takeWhile isModifier).length ≤ 16 ∧
      ((r.take 16).takeWhile isModifier).length ≤ r.length := by
    have := (List.takeWhile_sublist isModifier (l := r.take 16)).length_le
    simp only [List.length_take] at this
    omega
  have hmax : ∀ j m w, Reading b r j m w → j ≤ ((r.take 16).takeWhile isModifier).length := by
    rintro j m w ⟨⟨h1, h2⟩, h3, -⟩
    obtain ⟨hj, -⟩ := List.getElem?_eq_some_iff.1 h3
    rw [List.length_take] at h2
    refine takeWhile_len_ge _ j (by simp; omega) ?_
    intro c hc
    rw [List.take_take, Nat.min_eq_left (by omega)] at hc
    exact (isModifier_iff c).2 (h1 c hc)
  have hmods : ∀ i, i ≤ ((r.take 16).takeWhile isModifier).length → Modifiers (r.take i) := by
    intro i hi
    refine ⟨?_, by simp; omega⟩
    intro f hf
    rw [← isModifier_iff]
    apply hall
    rw [hpre]
    exact (List.take_sublist_take_left hi).subset hf
  revert hpre hall hm16 hmax hmods
  generalize (r.take 16).takeWhile isModifier = fl
  intro hpre hall hm16 hmax hmods
  cases hd : directVar b mods fl r with
  | some x =>
    right
    unfold directVar at hd
    cases hn : r[fl.length]? with
    | none => simp [hn] at hd
    | some n =>
      simp only [hn] at hd
      by_cases hl : localName n = true
      · rw [if_pos hl] at hd
        cases hv : b n with
        | none => simp [hv] at hd
        | some v =>
          simp only [hv, Option.map_some, Option.some.injEq] at hd
          refine ⟨fl.length, n, v, ⟨hmods _ (by omega), hn, (localName_iff n).1 hl, hv⟩, hmax, ?_⟩
          rw [← hpre, ← hd]; rfl
      · rw [if_neg hl] at hd; exact absurd hd (by simp)
  | none =>
    have hno : ∀ n v, ¬ Reading b r fl.length n v := by
      rintro n v ⟨-, hn, hl, hv⟩
      simp only [directVar, hn, (localName_iff n).2 hl, if_true, hv, Option.map_some] at hd
      exact absurd hd (by simp)
    have hbt := backtrack_spec b fl fl.length
    have hfl : ∀ i, i < fl.length → fl[i]? = r[i]? := by
      intro i hi
      rw [hpre, List.getElem?_take_of_lt hi]
    have hrd : ∀ i n v, Reading b r i n v → i < fl.length ∧ ∃ f, fl[i]? = some f ∧ (b f).isSome := by
      intro i n v h
      have h1 := hmax i n v h
      have h2 : i < fl.length := by
        rcases Nat.lt_or_ge i fl.length with h2 | h2
        · exact h2
        · have : i = fl.length := by omega
          exact absurd (this ▸ h) (hno n v)
      exact ⟨h2, n, by rw [hfl i h2]; exact h.2.1, by simp [h.2.2.2]⟩
    cases hb : backtrack b fl fl.length with
    | none =>
      left
      rw [hb] at hbt
      exact ⟨rfl, fun i n v h => hbt i (hrd i n v h)⟩
    | some i =>
      right
      rw [hb] at hbt
      obtain ⟨⟨hi, f, hf, hs⟩, hlast⟩ := hbt
      obtain ⟨v, hv⟩ := Option.isSome_iff_exists.1 hs
      have hname : isModifier f = true := hall f (List.mem_of_getElem? hf)
      refine ⟨i, f, v, ⟨hmods i (by omega), by rw [← hfl i hi]; exact hf, (localName_iff f).1 (modifier_name hname), hv⟩,
        ?_, ?_⟩
      · intro j m w h
        rcases Nat.lt_or_ge i j with h2 | h2
        · exact absurd (hrd j m w h) (hlast j h2)
        · exact h2
      · have : fl.take i = r.take i := by rw [hpre, List.take_take, Nat.min_eq_left (by omega)]
        simp only [hf, hv, Option.map_some, this]; rfl

theorem reading_split {b : LocalBlock} {r : List Char} {i : Nat} {n : Char} {v : List Char}
    (h : Reading b r i n v) : r = r.take i ++ n :: r.drop (i + 1) ∧ (r.take i).length = i := by
  obtain ⟨hi, hn⟩ := List.getElem?_eq_some_iff.1 h.2.1
  refine ⟨?_, by simp; omega⟩
  conv => lhs; rw [← List.take_append_drop i r]
  rw [List.drop_eq_getElem_cons hi, hn]

theorem reading_of_split {b : LocalBlock} {fs rest : List Char} {n : Char} {v : List Char}
    (h1 : Modifiers fs) (h2 : Defined b n v) : Reading b (fs ++ n :: rest) fs.length n v := by
  refine ⟨by rw [List.take_left]; exact h1, ?_, h2⟩
  rw [List.getElem?_append_right (by omega)]; simp

theorem localRef_tilde_iff {b : LocalBlock} {r fs rest : List Char} {n : Char} {v : List Char} (hv : b n = some v) :
    LocalRef b ('~' :: r) (some fs) n rest ↔
      (r = fs ++ n :: rest ∧ Reading b r fs.length n v ∧ ∀ j m w, Reading b r j m w → j ≤ fs.length) := by
  constructor
  · intro h
    cases h with
    | @tilde _ _ v' _ hm hd hl =>
      refine ⟨rfl, reading_of_split hm ⟨hd.1, hv⟩, ?_⟩
      intro j m w h
      obtain ⟨e, hlen⟩ := reading_split h
      have := hl _ m w _ e.symm h.1 h.2.2
      omega
  · rintro ⟨rfl, hr, hmax⟩
    have hm := hr.1
    rw [List.take_left] at hm
    refine .tilde hm hr.2.2 ?_
    intro fs' c' v' rest' e h1 h2
    have := reading_of_split (rest := rest') h1 h2
    rw [e] at this
    exact hmax _ _ _ this

/-- `pBat_GetLocalVar` finds exactly the references of the specification. -/
theorem getLocalVar_iff (b : LocalBlock) (mods : List Char → Char → List Char → List Char) (s v rest : List Char) :
    LocalValue b mods s v rest ↔ ∃ k, getLocalVar b mods s = some (v, k) ∧ 1 ≤ k ∧ k ≤ s.length ∧ rest = s.drop k := by
  cases s with
  | nil =>
    constructor
    · intro h
      cases h with
      | plain h => cases h
      | unquote h => cases h
      | modified h => cases h
    · rintro ⟨k, h, -⟩; simp [getLocalVar] at h
  | cons c r =>
    by_cases hc : c = '~'
    · subst hc
      have key := getLocalVar_tilde b mods r
      constructor
      · intro h
        have main : ∀ fs n, LocalRef b ('~' :: r) (some fs) n rest → ∀ w, b n = some w →
            ∃ k, getLocalVar b mods ('~' :: r) =
              some (if fs = [] then stripQuotes w else mods fs n (stripQuotes w), k) ∧
              1 ≤ k ∧ k ≤ ('~' :: r).length ∧ rest = ('~' :: r).drop k := by
          intro fs n hr w hw
          obtain ⟨e, hrd, hmx⟩ := (localRef_tilde_iff hw).1 hr
          rcases key with ⟨-, hno⟩ | ⟨i, m, w', hrd', hmx', heq⟩
          · exact absurd hrd (hno _ _ _)
          · have hi : i = fs.length := by
              have := hmx _ _ _ hrd'; have := hmx' _ _ _ hrd; omega
            subst hi
            have hnm : m = n := by
              have := hrd'.2.1.symm.trans hrd.2.1
              injection this
            subst hnm
            have hww : w' = w := by
              have := hrd'.2.2.2.symm.trans hw
              injection this
            subst hww
            refine ⟨fs.length + 2, ?_, by omega, ?_, ?_⟩
            · rw [heq, e, List.take_left]
            · rw [e]; simp
            · rw [e, List.drop_succ_cons, List.drop_append, List.drop_eq_nil_of_le (by omega)]
              have : fs.length + 1 - fs.length = 1 := by omega
              rw [this]; rfl
        cases h with
        | plain h => cases h; contradiction
        | unquote h hv hu =>
          obtain ⟨k, h1, h2⟩ := main _ _ h _ hv
          rw [if_pos rfl] at h1
          rw [(stripQuotes_iff _ _).1 hu]
          exact ⟨k, h1, h2⟩
        | modified h hne hv hu =>
          obtain ⟨k, h1, h2⟩ := main _ _ h _ hv
          rw [if_neg hne] at h1
          rw [(stripQuotes_iff _ _).1 hu]
          exact ⟨k, h1, h2⟩
      · rintro ⟨k, h, -, -, rfl⟩
        rcases key with ⟨h0, -⟩ | ⟨i, m, w', hrd', hmx', heq⟩
        · rw [h0] at h; exact absurd h (by simp)
        · rw [heq] at h
          simp only [Option.some.injEq, Prod.mk.injEq] at h
          obtain ⟨hv, rfl⟩ := h
          obtain ⟨e, hlen⟩ := reading_split hrd'
          have hr : LocalRef b ('~' :: r) (some (r.take i)) m (r.drop (i + 1)) := by
            rw [localRef_tilde_iff hrd'.2.2.2]
            refine ⟨e, by rw [hlen]; exact hrd', by rw [hlen]; exact hmx'⟩
          rw [List.drop_succ_cons]
          by_cases hnil : r.take i = []
          · rw [if_pos hnil] at hv
            rw [hnil] at hr
            rw [← hv]
            exact .unquote hr hrd'.2.2.2 (stripQuotes_spec _)
          · rw [if_neg hnil] at hv
            rw [← hv]
            exact .modified hr hnil hrd'.2.2.2 (stripQuotes_spec _)
    · have hsimple : getLocalVar b mods (c :: r) = if localName c then (b c).map (·, 1) else none := by
        simp [getLocalVar, hc]
      rw [hsimple]
      constructor
      · intro h
        cases h with
        | plain h hv =>
          cases h with
          | simple _ hd => exact ⟨1, by simp [(localName_iff c).2 hd.1, hv]⟩
        | unquote h => cases h; contradiction
        | modified h => cases h; contradiction
      · rintro ⟨k, h, -, -, rfl⟩
        by_cases hl : localName c = true
        · rw [if_pos hl] at h
          cases hv : b c with
          | none => simp [hv] at h
          | some w =>
            simp only [hv, Option.map_some, Option.some.injEq, Prod.mk.injEq] at h
            obtain ⟨rfl, rfl⟩ := h
            exact .plain (.simple hc ⟨(localName_iff c).1 hl, hv⟩) hv
        · rw [if_neg hl] at h; exact absurd h (by simp)

/-! ### Searching for delimiters -/

theorem IsFirst_unique {P : Nat → Prop} {a b : Option Nat} (ha : IsFirst P a) (hb : IsFirst P b) : a = b := by
  cases a with
  | none => cases b with
    | none => rfl
    | some j => exact absurd hb.1 (ha j)
  | some i => cases b with
    | none => exact absurd ha.1 (hb i)
    | some j =>
      congr 1
      rcases Nat.lt_trichotomy i j with h | h | h
      · exact absurd ha.1 (hb.2 i h)
      · exact h
      · exact absurd hb.1 (ha.2 j h)

theorem searchTok_none_iff (p : Char → Bool) (s : List Char) : searchTok p s = none ↔ ∀ i, ¬ Hit p s i := by
  have h := searchTok_first p s
  constructor
  · intro e; rw [e] at h; exact h
  · intro hn; exact IsFirst_unique h hn

theorem Hit_prefix (p : Char → Bool) (a b : List Char) (j : Nat) (h : j < a.length) : Hit p (a ++ b) j ↔ Hit p a j := by
  unfold Hit Free caretsBefore
  rw [List.getElem?_append_left h, List.take_append_of_le_length (by omega)]

theorem lead_search {d : Char} {pre : List Char} (h : Lead d pre) (x : List Char) :
    searchTok (· == d) (pre ++ d :: x) = some pre.length := by
  apply IsFirst_unique (searchTok_first _ _)
  constructor
  · refine ⟨⟨d, by simp, by simp⟩, ?_⟩
    unfold Free caretsBefore
    have := h.2
    unfold caretsBefore at this
    rw [List.take_length] at this
    rw [List.take_left]
    exact this
  · intro j hj
    rw [Hit_prefix _ _ _ _ hj]
    exact h.1 j

theorem search_some {d : Char} {s : List Char} {i : Nat} (h : searchTok (· == d) s = some i) :
    s = s.take i ++ d :: s.drop (i + 1) ∧ Lead d (s.take i) := by
  have hf := searchTok_first (· == d) s
  rw [h] at hf
  obtain ⟨⟨⟨c, hc, hd⟩, hfree⟩, hmin⟩ := hf
  obtain ⟨hi, he⟩ := List.getElem?_eq_some_iff.1 hc
  have hcd : c = d := by simpa using hd
  subst hcd
  have hsplit : s = s.take i ++ c :: s.drop (i + 1) := by
    conv => lhs; rw [← List.take_append_drop i s]
    rw [List.drop_eq_getElem_cons hi, he]
  refine ⟨hsplit, ?_, ?_⟩
  · intro j hj
    have hj' : j < (s.take i).length := by
      obtain ⟨⟨c', hc', -⟩, -⟩ := hj
      exact (List.getElem?_eq_some_iff.1 hc').1
    have hji : j < i := by simp at hj'; omega
    apply hmin j hji
    rw [hsplit, Hit_prefix _ _ _ _ hj']
    exact hj
  · unfold caretsBefore
    rw [List.take_length]
    exact hfree

theorem lead_head {d : Char} {n : List Char} (hn : n ≠ []) (h : Without d n) (x : List Char) :
    (n ++ x).head? ≠ some d := by
  cases n with
  | nil => exact absurd rfl hn
  | cons c n =>
    simp only [List.cons_append, List.head?_cons, ne_eq, Option.some.injEq]
    rintro rfl
    exact h 0 ⟨⟨c, by simp, by simp⟩, by simp [Free, caretsBefore]⟩

theorem without_head {d : Char} {n : List Char} (h : Without d n) : n.head? ≠ some d := by
  cases n with
  | nil => simp
  | cons c n => simpa using lead_head (by simp) h []

theorem res_bind_eq_ok {α β : Type} {x : Res α} {f : α → Res β} {b : β} :
    (x >>= f) = .ok b ↔ ∃ a, x = .ok a ∧ f a = .ok b := by
  cases x with
  | ok a => simp
  | ub => simp
  | hang => simp

/-! ### Expansion -/

section
variable (d : Char) (esc : List Char → List Char) (args : List Char → Option (List Char × Nat))
  (getv : List Char → Res (Option (List Char)))

/-- Argument references as the code sees them. -/
def codeArg (s v rest : List Char) : Prop :=
  d = '%' ∧ s.head?.any argStart = true ∧ ∃ k, args s = some (v, k) ∧ rest = s.drop k

theorem codeArg_if (body : List Char) :
    (if d == '%' && (body.head?.any argStart) then args body else none) =
      if d = '%' ∧ body.head?.any argStart = true then args body else none := by
  simp only [Bool.and_eq_true, beq_iff_eq]

theorem not_codeArg {body : List Char} :
    (¬ ∃ v r, codeArg d args body v r) ↔
      (if d = '%' ∧ body.head?.any argStart = true then args body else none) = none := by
  constructor
  · intro h
    split
    · rename_i hc
      cases ha : args body with
      | none => rfl
      | some x => exact absurd ⟨x.1, body.drop x.2, hc.1, hc.2, x.2, by rw [ha], rfl⟩ h
    · rfl
  · rintro h ⟨v, r, h1, h2, k, h3, -⟩
    rw [if_pos ⟨h1, h2⟩, h3] at h
    exact absurd h (by simp)

theorem expandVar_iff (s t : List Char) :
    expandVar d esc args getv s = .ok t ↔ Expands d esc (codeArg d args) getv s t := by
  constructor
  · intro h
    induction hn : s.length using Nat.strongRecOn generalizing s t with
    | ind n ih =>
      rw [expandVar.eq_1] at h
      split at h
      · rename_i hs
        injection h with h
        rw [← h]
        exact .done ((searchTok_none_iff _ _).1 hs)
      · rename_i i hs
        obtain ⟨hsp, hlead⟩ := search_some hs
        have hlt := searchTok_lt _ _ _ hs
        revert h
        generalize hbody : s.drop (i + 1) = body at hsp
        have hbl : body.length < s.length := by rw [← hbody, List.length_drop]; omega
        intro h
        simp only at h
        rw [hsp]
        by_cases hdd : body.head? = some d
        · rw [if_pos hdd, res_bind_eq_ok] at h
          obtain ⟨a, h1, h2⟩ := h
          simp only [Res.pure_eq, Res.ok.injEq] at h2
          rw [← h2]
          cases body with
          | nil => simp at hdd
          | cons c rest =>
            simp only [List.head?_cons, Option.some.injEq] at hdd
            subst hdd
            simp only [List.length_cons] at hbl
            exact .doubled hlead (ih rest.length (by omega) _ _ (by simpa using h1) rfl)
        · rw [if_neg hdd, codeArg_if] at h
          cases ha : (if d = '%' ∧ body.head?.any argStart = true then args body else none) with
          | some x =>
            rw [ha] at h
            simp only at h
            rw [res_bind_eq_ok] at h
            obtain ⟨a, h1, h2⟩ := h
            simp only [Res.pure_eq, Res.ok.injEq] at h2
            rw [← h2]
            split at ha
            · rename_i hc
              exact .argument (rest := body.drop x.2) hlead hdd ⟨hc.1, hc.2, x.2, by rw [ha], rfl⟩
                (ih _ (by rw [List.length_drop]; omega) _ _ h1 rfl)
            · exact absurd ha (by simp)
          | none =>
            rw [ha] at h
            simp only at h
            have hna := (not_codeArg d args).2 ha
            split at h
            · rename_i j hj
              obtain ⟨hsp2, hlead2⟩ := search_some hj
              rw [res_bind_eq_ok] at h
              obtain ⟨v, hv, h⟩ := h
              rw [res_bind_eq_ok] at h
              obtain ⟨a, h1, h2⟩ := h
              simp only [Res.pure_eq, Res.ok.injEq] at h2
              rw [← h2]
              have hne : body.take j ≠ [] := by
                intro h0
                rw [h0] at hsp2
                rw [hsp2] at hdd
                simp at hdd
              rw [hsp2]
              rw [hsp2] at hna
              exact .var hlead hne hlead2 hna hv (ih _ (by rw [List.length_drop]; omega) _ _ h1 rfl)
            · rename_i hj
              have hw := (searchTok_none_iff _ _).1 hj
              rw [res_bind_eq_ok] at h
              obtain ⟨a, h1, h2⟩ := h
              simp only [Res.pure_eq, Res.ok.injEq] at h2
              rw [← h2]
              have he : expandVar d esc args getv body = .ok (esc body) := by
                rw [expandVar.eq_1]
                split
                · rfl
                · rename_i k hk
                  rw [hk] at hj; exact absurd hj (by simp)
              rw [he] at h1
              injection h1 with h1
              rw [← h1]
              exact .alone hlead hw hna
  · intro h
    have unfold1 : ∀ {pre x : List Char}, Lead d pre → expandVar d esc args getv (pre ++ d :: x) =
        (if x.head? = some d then do
          let t ← expandVar d esc args getv (x.drop 1)
          pure (esc pre ++ d :: t)
        else match (if d = '%' ∧ x.head?.any argStart = true then args x else none) with
          | some (v, k) => do
            let t ← expandVar d esc args getv (x.drop k)
            pure (esc pre ++ v ++ t)
          | none =>
            match searchTok (· == d) x with
            | some j => do
              let v ← getv (x.take j)
              let t ← expandVar d esc args getv (x.drop (j + 1))
              pure (esc pre ++ v.getD [] ++ t)
            | none => do
              let t ← expandVar d esc args getv x
              pure (esc pre ++ t)) := by
      intro pre x hl
      rw [expandVar.eq_1]
      have hs := lead_search hl x
      split
      · rename_i h0; rw [hs] at h0; exact absurd h0 (by simp)
      · rename_i i h0
        rw [hs] at h0
        injection h0 with h0
        subst h0
        have e1 : (pre ++ d :: x).take pre.length = pre := List.take_left
        have e2 : (pre ++ d :: x).drop (pre.length + 1) = x := by
          rw [List.drop_append, List.drop_eq_nil_of_le (by omega)]
          have : pre.length + 1 - pre.length = 1 := by omega
          rw [this]; rfl
        simp only [e1, e2, codeArg_if]
        rfl
    have hdone : ∀ {s : List Char}, Without d s → expandVar d esc args getv s = .ok (esc s) := by
      intro s hw
      rw [expandVar.eq_1]
      split
      · rfl
      · rename_i k hk
        rw [(searchTok_none_iff _ _).2 hw] at hk; exact absurd hk (by simp)
    induction h with
    | done hw => exact hdone hw
    | doubled hl _ ih =>
      rw [unfold1 hl, if_pos (by simp)]
      simp [ih]
    | argument hl hne harg _ ih =>
      obtain ⟨h1, h2, k, h3, rfl⟩ := harg
      rw [unfold1 hl, if_neg hne, if_pos ⟨h1, h2⟩, h3]
      simp [ih]
    | @var pre n v rest t hl hn hln hna hv _ ih =>
      rw [unfold1 hl, if_neg (lead_head hn hln.1 _), (not_codeArg d args).1 hna]
      simp only
      have e2 : (n ++ d :: rest).drop (n.length + 1) = rest := by
        rw [List.drop_append, List.drop_eq_nil_of_le (by omega)]
        have : n.length + 1 - n.length = 1 := by omega
        rw [this]; rfl
      rw [lead_search hln]
      simp only [List.take_left, hv, e2, ih]
      simp
    | alone hl hw hna =>
      rw [unfold1 hl, if_neg (without_head hw), (not_codeArg d args).1 hna]
      simp only
      rw [(searchTok_none_iff _ _).2 hw]
      simp [hdone hw]

/-- Expansion is a partial function. -/
theorem Expands_det {s t t' : List Char} (h : Expands d esc (codeArg d args) getv s t)
    (h' : Expands d esc (codeArg d args) getv s t') : t = t' := by
  have h1 := (expandVar_iff d esc args getv s t).2 h
  have h2 := (expandVar_iff d esc args getv s t').2 h'
  rw [h1] at h2
  injection h2

end

/-- A relation between arguments of `Expands` may be replaced by an equivalent one. -/
theorem Expands_congr {d esc val s t} {A B : List Char → List Char → List Char → Prop}
    (h : ∀ s v r, A s v r ↔ B s v r) (hs : Expands d esc A val s t) : Expands d esc B val s t := by
  have hno : ∀ s, (¬ ∃ v r, A s v r) → ¬ ∃ v r, B s v r := by
    rintro s hA ⟨v, r, hb⟩
    exact hA ⟨v, r, (h s v r).2 hb⟩
  induction hs with
  | done hw => exact .done hw
  | doubled hl _ ih => exact .doubled hl ih
  | argument hl hne ha _ ih => exact .argument hl hne ((h _ _ _).1 ha) ih
  | var hl hn hln hna hv _ ih => exact .var hl hn hln (hno _ hna) hv ih
  | alone hl hw hna => exact .alone hl hw (hno _ hna)

theorem argStart_iff (s : List Char) : s.head?.any argStart = true ↔ ArgStart s := by
  unfold ArgStart argStart
  cases s with
  | nil => simp
  | cons c r => simp [or_assoc]

theorem getLocalVar_bound {b : LocalBlock} {mods} {s v : List Char} {k : Nat}
    (h2 : getLocalVar b mods s = some (v, k)) : 1 ≤ k ∧ k ≤ s.length := by
  cases s with
  | nil => simp [getLocalVar] at h2
  | cons c r =>
    by_cases hc : c = '~'
    · subst hc
      rcases getLocalVar_tilde b mods r with ⟨h0, -⟩ | ⟨i, n, w, hr, -, he⟩
      · rw [h0] at h2; exact absurd h2 (by simp)
      · rw [he] at h2
        simp only [Option.some.injEq, Prod.mk.injEq] at h2
        obtain ⟨hi, -⟩ := List.getElem?_eq_some_iff.1 hr.2.1
        simp only [List.length_cons]
        omega
    · simp only [getLocalVar, bne_iff_ne, ne_eq, hc, not_false_eq_true, if_true] at h2
      split at h2
      · cases hb : b c with
        | none => simp [hb] at h2
        | some w =>
          simp only [hb, Option.map_some, Option.some.injEq, Prod.mk.injEq] at h2
          simp only [List.length_cons]; omega
      · exact absurd h2 (by simp)

theorem getLocalVar_iff' (b : LocalBlock) (mods) (s v rest : List Char) :
    LocalValue b mods s v rest ↔ ∃ k, getLocalVar b mods s = some (v, k) ∧ rest = s.drop k := by
  rw [getLocalVar_iff]
  constructor
  · rintro ⟨k, h, -, -, hr⟩; exact ⟨k, h, hr⟩
  · rintro ⟨k, h, hr⟩; exact ⟨k, h, (getLocalVar_bound h).1, (getLocalVar_bound h).2, hr⟩

/-- Argument references of the code are those of the specification. -/
theorem codeArg_iff (b : LocalBlock) (mods) (s v rest : List Char) :
    codeArg '%' (getLocalVar b mods) s v rest ↔ (ArgStart s ∧ LocalValue b mods s v rest) := by
  rw [getLocalVar_iff', ← argStart_iff]
  constructor
  · rintro ⟨-, h1, h⟩; exact ⟨h1, h⟩
  · rintro ⟨h1, h⟩; exact ⟨rfl, h1, h⟩

theorem ExpandsSpecial_congr {s t} {A B : List Char → List Char → List Char → Prop}
    (h : ∀ s v r, A s v r ↔ B s v r) (hs : ExpandsSpecial A s t) : ExpandsSpecial B s t := by
  have hno : ∀ s, (¬ ∃ v r, A s v r) → ¬ ∃ v r, B s v r := by
    rintro s hA ⟨v, r, hb⟩
    exact hA ⟨v, r, (h s v r).2 hb⟩
  induction hs with
  | done hw => exact .done hw
  | reference hl ha _ ih => exact .reference hl ((h _ _ _).1 ha) ih
  | other hl hna _ ih => exact .other hl (hno _ hna) ih

theorem without_of_not_mem {d : Char} {s : List Char} (h : d ∉ s) : Without d s := by
  rintro i ⟨⟨c, hc, hd⟩, -⟩
  have : c = d := by simpa using hd
  exact h (this ▸ List.mem_of_getElem? hc)

theorem lead_of_not_mem {d : Char} {n : List Char} (h1 : d ∉ n) (h2 : '^' ∉ n) : Lead d n := by
  refine ⟨without_of_not_mem h1, ?_⟩
  unfold caretsBefore
  rw [List.take_length]
  have : n.reverse.takeWhile (· == '^') = [] := by
    cases hr : n.reverse with
    | nil => rfl
    | cons c r =>
      rw [List.takeWhile_cons_of_neg]
      simp only [beq_iff_eq]
      intro hc
      exact h2 (List.mem_reverse.1 (by rw [hr, hc]; simp))
  rw [this]; rfl

theorem expandSpecial_iff (args : List Char → Option (List Char × Nat)) (s t : List Char) :
    expandSpecial args s = t ↔ ExpandsSpecial (fun s v r => ∃ k, args s = some (v, k) ∧ r = s.drop k) s t := by
  have hnone : ∀ {s : List Char}, (¬ ∃ v r k, args s = some (v, k) ∧ r = s.drop k) ↔ args s = none := by
    intro s
    constructor
    · intro h
      cases ha : args s with
      | none => rfl
      | some x => exact absurd ⟨x.1, _, x.2, ha, rfl⟩ h
    · rintro h ⟨v, r, k, hk, -⟩
      rw [h] at hk; exact absurd hk (by simp)
  constructor
  · rintro rfl
    induction hn : s.length using Nat.strongRecOn generalizing s with
    | ind n ih =>
      rw [expandSpecial.eq_1]
      split
      · rename_i hs
        exact .done ((searchTok_none_iff _ _).1 hs)
      · rename_i i hs
        obtain ⟨hsp, hlead⟩ := search_some hs
        have hlt := searchTok_lt _ _ _ hs
        simp only
        split
        · rename_i v k ha
          conv => arg 2; rw [hsp]
          exact .reference hlead ⟨k, ha, rfl⟩ (ih _ (by simp only [List.length_drop]; omega) _ rfl)
        · rename_i ha
          have e : s.take (i + 1) = s.take i ++ ['%'] := by
            rw [List.take_succ]
            congr 1
            have : s[i]? = some '%' := by
              conv => lhs; rw [hsp]
              rw [List.getElem?_append_right (by simp; omega)]
              simp only [List.length_take]
              rw [Nat.min_eq_left (by omega)]; simp
            rw [this]; rfl
          rw [e, List.append_assoc]
          conv => arg 2; rw [hsp]
          exact .other hlead (hnone.2 ha) (ih _ (by simp only [List.length_drop]; omega) _ rfl)
  · intro h
    have unfold1 : ∀ {pre x : List Char}, Lead '%' pre → expandSpecial args (pre ++ '%' :: x) =
        (match args x with
          | some (v, k) => pre ++ v ++ expandSpecial args (x.drop k)
          | none => pre ++ '%' :: expandSpecial args x) := by
      intro pre x hl
      rw [expandSpecial.eq_1]
      have hs := lead_search hl x
      split
      · rename_i h0; rw [hs] at h0; exact absurd h0 (by simp)
      · rename_i i h0
        rw [hs] at h0
        injection h0 with h0
        subst h0
        have e1 : (pre ++ '%' :: x).take pre.length = pre := List.take_left
        have e2 : (pre ++ '%' :: x).drop (pre.length + 1) = x := by
          rw [List.drop_append, List.drop_eq_nil_of_le (by omega)]
          have : pre.length + 1 - pre.length = 1 := by omega
          rw [this]; rfl
        have e3 : (pre ++ '%' :: x).take (pre.length + 1) = pre ++ ['%'] := by
          rw [List.take_append, List.take_of_length_le (by omega)]
          have : pre.length + 1 - pre.length = 1 := by omega
          rw [this]; rfl
        simp only [e1, e2, e3]
        cases args x with
        | none => simp
        | some y => rfl
    induction h with
    | done hw =>
      rw [expandSpecial.eq_1]
      split
      · rfl
      · rename_i k hk
        rw [(searchTok_none_iff _ _).2 hw] at hk; exact absurd hk (by simp)
    | reference hl ha _ ih =>
      obtain ⟨k, h1, rfl⟩ := ha
      rw [unfold1 hl, h1]
      simp [ih]
    | other hl ha _ ih =>
      rw [unfold1 hl, hnone.1 ha]
      simp [ih]

end PBat
