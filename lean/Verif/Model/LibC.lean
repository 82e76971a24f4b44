/-
The C library functions `qsort` and `bsearch` as the C standard specifies them: any implementation is
allowed, and nothing is promised when the comparison function or the array does not meet the contract.
-/
namespace PBat

/-- A comparison function is a total preorder on the elements of `l` (ISO C 7.22.5: "consistent"). -/
def Consistent {α : Type} (cmp : α → α → Int) (l : List α) : Prop :=
  (∀ a ∈ l, ∀ b ∈ l, (cmp a b < 0 ↔ 0 < cmp b a)) ∧
  (∀ a ∈ l, ∀ b ∈ l, ∀ c ∈ l, cmp a b ≤ 0 → cmp b c ≤ 0 → cmp a c ≤ 0)

/-- The array is ordered for this key (ISO C 7.22.5.1): first the elements below the key, then the equal
ones, then the elements above. -/
def OrderedFor {α : Type} (cmp : α → α → Int) (key : α) (l : List α) : Prop :=
  l.Pairwise fun a b => (cmp key a ≤ 0 → cmp key b ≤ 0) ∧ (cmp key a < 0 → cmp key b < 0)

/-- An implementation of the two functions. -/
structure LibC where
  qsort : {α : Type} → (α → α → Int) → List α → List α
  bsearch : {α : Type} → (α → α → Int) → α → List α → Option Nat
  qsort_perm : ∀ {α : Type} (cmp : α → α → Int) (l : List α), Consistent cmp l → (qsort cmp l).Perm l
  qsort_sorted : ∀ {α : Type} (cmp : α → α → Int) (l : List α), Consistent cmp l →
    (qsort cmp l).Pairwise (cmp · · ≤ 0)
  bsearch_some : ∀ {α : Type} (cmp : α → α → Int) (key : α) (l : List α) (i : Nat), OrderedFor cmp key l →
    bsearch cmp key l = some i → ∃ a, l[i]? = some a ∧ cmp key a = 0
  bsearch_none : ∀ {α : Type} (cmp : α → α → Int) (key : α) (l : List α), OrderedFor cmp key l →
    bsearch cmp key l = none → ∀ a ∈ l, cmp key a ≠ 0

/-- Lexicographic comparison of codes; a proper prefix is smaller (the terminator is the least code). -/
def lexCmp : List Nat → List Nat → Int
  | [], [] => 0
  | [], _ :: _ => -1
  | _ :: _, [] => 1
  | a :: as, b :: bs => if a < b then -1 else if b < a then 1 else lexCmp as bs

/-- The codes compared by `stricmp`/`strcasecmp`. -/
def codes (s : List Char) : List Nat := s.map fun c => c.toLower.toNat

/-- `stricmp`. C library. -/
def stricmp (a b : List Char) : Int := lexCmp (codes a) (codes b)

/-- `strcmp`. C library. -/
def strcmp (a b : List Char) : Int := lexCmp (a.map Char.toNat) (b.map Char.toNat)

end PBat
