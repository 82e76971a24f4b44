import Verif.Model.LibC
/-
Facts about the comparison functions, and a conforming implementation of `qsort` and `bsearch`.
-/
namespace PBat

theorem lexCmp_neg (a b : List Nat) : lexCmp b a = - lexCmp a b := by
  fun_induction lexCmp a b with
  | case1 => rfl
  | case2 => rfl
  | case3 => rfl
  | case4 a as b bs h => simp only [lexCmp]; rw [if_neg (by omega), if_pos h]; rfl
  | case5 a as b bs h h' => simp only [lexCmp]; rw [if_pos h']
  | case6 a as b bs h h' ih => simp only [lexCmp]; rw [if_neg h', if_neg h, ih]

theorem lexCmp_eq_zero (a b : List Nat) : lexCmp a b = 0 ↔ a = b := by
  fun_induction lexCmp a b with
  | case1 => simp
  | case2 => simp
  | case3 => simp
  | case4 a as b bs h => simp; omega
  | case5 a as b bs h h' => simp; omega
  | case6 a as b bs h h' ih => simp [ih]; omega

theorem lexCmp_trans {a b c : List Nat} (h1 : lexCmp a b ≤ 0) (h2 : lexCmp b c ≤ 0) : lexCmp a c ≤ 0 := by
  induction a generalizing b c with
  | nil => cases c <;> simp [lexCmp]
  | cons x a ih =>
    cases b with
    | nil => simp [lexCmp] at h1
    | cons y b =>
      cases c with
      | nil => simp [lexCmp] at h2
      | cons z c =>
        simp only [lexCmp] at *
        split at h1 <;> split at h2 <;> split <;> (try omega) <;> (try split at h1) <;> (try split at h2) <;>
          (try split) <;> (try omega)
        exact ih h1 h2

theorem lexCmp_trans_lt {a b c : List Nat} (h1 : lexCmp a b < 0) (h2 : lexCmp b c ≤ 0) : lexCmp a c < 0 := by
  have h := lexCmp_trans (Int.le_of_lt h1) h2
  rcases Int.lt_or_eq_of_le h with h' | h'
  · exact h'
  · rw [lexCmp_eq_zero] at h'
    subst h'
    rw [lexCmp_neg] at h2
    omega

theorem lexCmp_lt_trans {a b c : List Nat} (h1 : lexCmp a b ≤ 0) (h2 : lexCmp b c < 0) : lexCmp a c < 0 := by
  have h := lexCmp_trans h1 (Int.le_of_lt h2)
  rcases Int.lt_or_eq_of_le h with h' | h'
  · exact h'
  · rw [lexCmp_eq_zero] at h'
    subst h'
    rw [lexCmp_neg] at h1
    omega

/-- A comparison that agrees in sign with the comparison of codes. -/
def SignLex {α : Type} (cmp : α → α → Int) (enc : α → List Nat) (a b : α) : Prop :=
  (cmp a b < 0 ↔ lexCmp (enc a) (enc b) < 0) ∧ (cmp a b = 0 ↔ enc a = enc b)

theorem SignLex.le {α : Type} {cmp : α → α → Int} {enc : α → List Nat} {a b : α} (h : SignLex cmp enc a b) :
    cmp a b ≤ 0 ↔ lexCmp (enc a) (enc b) ≤ 0 := by
  obtain ⟨h1, h2⟩ := h
  rw [← lexCmp_eq_zero] at h2
  omega

theorem consistent_of_signLex {α : Type} {cmp : α → α → Int} {enc : α → List Nat} {l : List α}
    (h : ∀ a ∈ l, ∀ b ∈ l, SignLex cmp enc a b) : Consistent cmp l := by
  constructor
  · intro a ha b hb
    have h1 := h a ha b hb
    have h2 := (h b hb a ha).le
    rw [h1.1]
    have := lexCmp_neg (enc a) (enc b)
    omega
  · intro a ha b hb c hc h1 h2
    rw [(h _ ha _ hb).le] at h1
    rw [(h _ hb _ hc).le] at h2
    rw [(h _ ha _ hc).le]
    exact lexCmp_trans h1 h2

theorem orderedFor_of_signLex {α : Type} {cmp : α → α → Int} {enc : α → List Nat} {key : α} {l : List α}
    (h : ∀ a ∈ l, ∀ b ∈ l, SignLex cmp enc a b) (hk : ∀ a ∈ l, SignLex cmp enc key a)
    (hs : l.Pairwise (cmp · · ≤ 0)) : OrderedFor cmp key l := by
  unfold OrderedFor
  refine hs.imp_of_mem ?_
  intro a b ha hb hab
  rw [(h _ ha _ hb).le] at hab
  rw [(hk a ha).le, (hk b hb).le, (hk a ha).1, (hk b hb).1]
  exact ⟨fun h => lexCmp_trans h hab, fun h => lexCmp_trans_lt h hab⟩

/-! ### A conforming implementation -/

/-- Insertion into a sorted list. -/
def insertBy {α : Type} (cmp : α → α → Int) (a : α) : List α → List α
  | [] => [a]
  | b :: l => if cmp a b ≤ 0 then a :: b :: l else b :: insertBy cmp a l

/-- Insertion sort. -/
def sortBy {α : Type} (cmp : α → α → Int) : List α → List α
  | [] => []
  | a :: l => insertBy cmp a (sortBy cmp l)

/-- Binary search as in glibc (`fuel` bounds the number of halvings). -/
def bsLoop {α : Type} (cmp : α → α → Int) (key : α) (l : List α) : Nat → Nat → Nat → Option Nat
  | 0, _, _ => none
  | fuel + 1, lo, hi =>
    if lo < hi then
      match l[(lo + hi) / 2]? with
      | none => none
      | some a =>
        if cmp key a < 0 then bsLoop cmp key l fuel lo ((lo + hi) / 2)
        else if 0 < cmp key a then bsLoop cmp key l fuel ((lo + hi) / 2 + 1) hi
        else some ((lo + hi) / 2)
    else none

theorem insertBy_perm {α : Type} (cmp : α → α → Int) (a : α) (l : List α) : (insertBy cmp a l).Perm (a :: l) := by
  induction l with
  | nil => exact .refl _
  | cons b l ih =>
    simp only [insertBy]
    split
    · exact .refl _
    · exact (ih.cons b).trans (.swap a b l)

theorem sortBy_perm {α : Type} (cmp : α → α → Int) (l : List α) : (sortBy cmp l).Perm l := by
  induction l with
  | nil => exact .refl _
  | cons a l ih => exact (insertBy_perm cmp a _).trans (ih.cons a)

theorem insertBy_sorted {α : Type} (cmp : α → α → Int) (a : α) (l : List α)
    (hc : Consistent cmp (a :: l)) (h : l.Pairwise (cmp · · ≤ 0)) : (insertBy cmp a l).Pairwise (cmp · · ≤ 0) := by
  induction l with
  | nil => simp [insertBy]
  | cons b l ih =>
    simp only [insertBy]
    have hab := (hc.1 a (by simp) b (by simp))
    have hba := (hc.1 b (by simp) a (by simp))
    split
    · rename_i hle
      refine List.pairwise_cons.2 ⟨?_, h⟩
      intro x hx
      rcases List.mem_cons.1 hx with rfl | hx'
      · exact hle
      · exact hc.2 a (by simp) b (by simp) x (by simp [hx']) hle ((List.pairwise_cons.1 h).1 x hx')
    · rename_i hle
      refine List.pairwise_cons.2 ⟨?_, ih ?_ (List.pairwise_cons.1 h).2⟩
      · intro x hx
        rcases List.mem_cons.1 ((insertBy_perm cmp a l).mem_iff.1 hx) with rfl | hx'
        · omega
        · exact (List.pairwise_cons.1 h).1 x hx'
      · refine ⟨fun x hx y hy => hc.1 x ?_ y ?_, fun x hx y hy z hz => hc.2 x ?_ y ?_ z ?_⟩ <;>
          · grind

theorem sortBy_sorted {α : Type} (cmp : α → α → Int) (l : List α) (hc : Consistent cmp l) :
    (sortBy cmp l).Pairwise (cmp · · ≤ 0) := by
  induction l with
  | nil => exact .nil
  | cons a l ih =>
    refine insertBy_sorted cmp a _ ?_ (ih ?_)
    · have hm : ∀ x, x ∈ a :: sortBy cmp l → x ∈ a :: l := by
        intro x hx
        rcases List.mem_cons.1 hx with rfl | hx
        · simp
        · exact List.mem_cons_of_mem _ ((sortBy_perm cmp l).mem_iff.1 hx)
      exact ⟨fun x hx y hy => hc.1 x (hm x hx) y (hm y hy),
        fun x hx y hy z hz => hc.2 x (hm x hx) y (hm y hy) z (hm z hz)⟩
    · exact ⟨fun x hx y hy => hc.1 x (by simp [hx]) y (by simp [hy]),
        fun x hx y hy z hz => hc.2 x (by simp [hx]) y (by simp [hy]) z (by simp [hz])⟩

theorem bsLoop_some {α : Type} (cmp : α → α → Int) (key : α) (l : List α) (fuel lo hi i : Nat)
    (h : bsLoop cmp key l fuel lo hi = some i) : ∃ a, l[i]? = some a ∧ cmp key a = 0 := by
  induction fuel generalizing lo hi with
  | zero => simp [bsLoop] at h
  | succ fuel ih =>
    simp only [bsLoop] at h
    split at h
    · split at h
      · simp at h
      · rename_i a ha
        split at h
        · exact ih _ _ h
        · split at h
          · exact ih _ _ h
          · simp at h; subst h; exact ⟨a, ha, by omega⟩
    · simp at h

theorem bsLoop_none {α : Type} (cmp : α → α → Int) (key : α) (l : List α) (ho : OrderedFor cmp key l)
    (fuel lo hi : Nat) (hf : hi - lo < fuel) (hh : hi ≤ l.length)
    (h : bsLoop cmp key l fuel lo hi = none)
    (hlo : ∀ j a, j < lo → l[j]? = some a → cmp key a ≠ 0)
    (hhi : ∀ j a, hi ≤ j → l[j]? = some a → cmp key a ≠ 0) :
    ∀ a ∈ l, cmp key a ≠ 0 := by
  have hpair : ∀ (i j : Nat) (a b : α), i < j → l[i]? = some a → l[j]? = some b →
      (cmp key a ≤ 0 → cmp key b ≤ 0) ∧ (cmp key a < 0 → cmp key b < 0) := by
    intro i j a b hij ha hb
    obtain ⟨hi', rfl⟩ := List.getElem?_eq_some_iff.1 ha
    obtain ⟨hj', rfl⟩ := List.getElem?_eq_some_iff.1 hb
    exact List.pairwise_iff_getElem.1 ho i j hi' hj' hij
  induction fuel generalizing lo hi with
  | zero => omega
  | succ fuel ih =>
    simp only [bsLoop] at h
    split at h
    · rename_i hlt
      split at h
      · rename_i hn
        have := List.getElem?_eq_none_iff.1 hn
        omega
      · rename_i a ha
        split at h
        · rename_i hc
          refine ih _ _ (by omega) (by omega) h hlo ?_
          intro j b hj hb
          rcases Nat.lt_or_ge ((lo + hi) / 2) j with hj' | hj'
          · have := (hpair _ _ _ _ hj' ha hb).2 hc; omega
          · have : j = (lo + hi) / 2 := by omega
            subst this; rw [ha] at hb; cases hb; omega
        · split at h
          · rename_i hc
            refine ih _ _ (by omega) (by omega) h ?_ hhi
            intro j b hj hb
            rcases Nat.lt_or_ge j ((lo + hi) / 2) with hj' | hj'
            · have := (hpair _ _ _ _ hj' hb ha).1; omega
            · have : j = (lo + hi) / 2 := by omega
              subst this; rw [ha] at hb; cases hb; omega
          · simp at h
    · intro a ha
      obtain ⟨j, hj⟩ := List.getElem?_of_mem ha
      rcases Nat.lt_or_ge j lo with h' | h'
      · exact hlo j a h' hj
      · exact hhi j a (by omega) hj

/-- Insertion sort and binary search conform to the standard. -/
def stdLib : LibC where
  qsort := sortBy
  bsearch := fun cmp key l => bsLoop cmp key l (l.length + 1) 0 l.length
  qsort_perm := fun cmp l _ => sortBy_perm cmp l
  qsort_sorted := fun cmp l h => sortBy_sorted cmp l h
  bsearch_some := fun cmp key l i _ h => bsLoop_some cmp key l _ _ _ i h
  bsearch_none := fun cmp key l ho h => bsLoop_none cmp key l ho _ _ _ (by omega) (by omega) h
    (fun _ _ h => by omega) (fun j a h ha => by
      have := (List.getElem?_eq_some_iff.1 ha).1; omega)

end PBat
