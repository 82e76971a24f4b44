import Verif.Model.For
import Verif.Model.Replace
/-
The options and the inputs of FOR /F, pbat/command/pBat_For.c.
-/
namespace PBat

/-- The kinds of options, pbat/command/pBat_For.h:137-143. -/
inductive SpecType
  | tokens
  | eol
  | delims
  | skip
  | usebackq
deriving DecidableEq

/-- `pBat_ForIsSpecifier`, pbat/command/pBat_For.c:697-717: the option that begins at `p`, if there is one. -/
def forIsSpecifier (p : List Char) : Option SpecType :=
  if prefixI ['t', 'o', 'k', 'e', 'n', 's', '='] p then some .tokens
  else if prefixI ['e', 'o', 'l', '='] p then some .eol
  else if prefixI ['d', 'e', 'l', 'i', 'm', 's', '='] p then some .delims
  else if prefixI ['s', 'k', 'i', 'p', '='] p then some .skip
  else if prefixI ['u', 's', 'e', 'b', 'a', 'c', 'k', 'q'] p ∧ (p.drop 8 = [] ∨ p[8]? = some ' ') then some .usebackq
  else none

/-- `strchr(s, ' ')` and the loop `while (*(next+1)==' ') next++`, pbat/command/pBat_For.c:729-735 and 744-756: the text before
`next` and the text from `next+1`; `none` if there is no space. -/
def nextSpace : List Char → Option (List Char × List Char)
  | [] => none
  | c :: r => if c = ' ' ∧ r.head? ≠ some ' ' then some ([], r) else (nextSpace r).map (fun x => (c :: x.1, x.2))

theorem nextSpace_eq : ∀ {s p a : List Char}, nextSpace s = some (p, a) → s = p ++ ' ' :: a := by
  intro s
  induction s with
  | nil => intro p a h; simp [nextSpace] at h
  | cons c r ih =>
    intro p a h
    rw [nextSpace] at h
    split at h
    · next h' =>
      simp only [Option.some.injEq, Prod.mk.injEq] at h
      obtain ⟨rfl, rfl⟩ := h
      rw [h'.1]; rfl
    · cases hr : nextSpace r with
      | none => rw [hr] at h; simp at h
      | some x =>
        rw [hr] at h
        simp only [Option.map_some, Option.some.injEq, Prod.mk.injEq] at h
        obtain ⟨rfl, rfl⟩ := h
        rw [ih (p := x.1) (a := x.2) (by rw [hr])]
        rfl

/-- The end of an option with a value, pbat/command/pBat_For.c:737-759: its text and the text behind the space that ends it. -/
def specEnd (s : List Char) : List Char × List Char :=
  match h : nextSpace s with
  | none => (s, [])
  | some (p, a) =>
    if (forIsSpecifier a).isSome then (p, a)
    else
      have : a.length < s.length := by rw [nextSpace_eq h]; simp; omega
      (p ++ ' ' :: (specEnd a).1, (specEnd a).2)
termination_by s.length

/-- `pBat_ForGetSpecifier`, pbat/command/pBat_For.c:719-764: the kind of the option, its text and the rest; `none` at the end of
the text. -/
def forGetSpecifier (s : List Char) : Option (Option SpecType × List Char × List Char) :=
  if s = [] then none
  else match forIsSpecifier s with
    | some .usebackq => some (some .usebackq, (nextSpace s).getD (s, []))
    | some t => some (some t, specEnd s)
    | none => some (none, (nextSpace s).getD (s, []))

/-- The part of `FORINFO` the options set, pbat/command/pBat_For.h:42-74: `table` is `lpToken`, `count` is `iTokenNb`. -/
structure ForOpts where
  delims : List Char
  eol : List Char
  skip : Int
  usebackq : Bool
  table : List Nat
  count : Nat
deriving DecidableEq

/-- The values before the options are read, pbat/command/pBat_For.c:91-101. -/
def forDefaults : ForOpts := { delims := [' ', '\t'], eol := [';'], skip := 0, usebackq := false, table := tokInit, count := 1 }

/-- One option, pbat/command/pBat_For.c:638-689; `v` is the text behind the equal sign.  `FILENAME_MAX` is 4096. -/
def forSetOption (o : ForOpts) (t : SpecType) (v : List Char) : Res (Option ForOpts) :=
  match t with
  | .usebackq => .ok (some { o with usebackq := true })
  | .delims =>
    .ok (some { o with delims := v.take 4095, eol := if (v.take 4095).contains ';' ∧ o.eol = [';'] then [] else o.eol })
  | .skip => .ok (some { o with skip := longToInt (strtol0 v).1 })
  | .eol => .ok (some { o with eol := v.take 4095 })
  | .tokens => do
    match ← tokLoop { table := o.table } v with
    | none => pure none
    | some st => pure (some { o with table := st.table, count := st.i })

/-- The length of the name of an option and its equal sign, the `sizeof` of pbat/command/pBat_For.c:651, 671, 678, 686. -/
def specSkip : SpecType → Nat
  | .tokens => 7
  | .eol => 4
  | .delims => 7
  | .skip => 5
  | .usebackq => 8

/-- What `pBat_ForGetSpecifier` leaves is shorter. -/
theorem nextSpace_shorter {s : List Char} (hs : s ≠ []) : ((nextSpace s).getD (s, [])).2.length < s.length := by
  cases h : nextSpace s with
  | none => cases s with
    | nil => exact absurd rfl hs
    | cons => simp
  | some x =>
    obtain ⟨p, a⟩ := x
    have := nextSpace_eq h
    simp only [Option.getD_some]
    rw [this]
    simp
    omega

theorem specEnd_shorter (s : List Char) (hs : s ≠ []) : (specEnd s).2.length < s.length := by
  fun_induction specEnd s with
  | case1 s h => cases s with
    | nil => exact absurd rfl hs
    | cons => simp
  | case2 s p a h h' => rw [nextSpace_eq h]; simp; omega
  | case3 s p a h h' hlt ih =>
    by_cases ha : a = []
    · subst ha
      have e : (specEnd []).2 = [] := by rw [specEnd]; simp only [nextSpace]
      simp only [e]
      rw [nextSpace_eq h]
      simp
    · have := ih ha
      simp only
      omega

theorem forGetSpecifier_shorter {s : List Char} {t : Option SpecType} {x r : List Char}
    (h : forGetSpecifier s = some (t, x, r)) : r.length < s.length := by
  unfold forGetSpecifier at h
  split at h
  · exact absurd h (by simp)
  · next hs =>
    have h1 := nextSpace_shorter hs
    have h2 := specEnd_shorter s hs
    split at h
    · simp only [Option.some.injEq, Prod.mk.injEq] at h
      rw [h.2] at h1
      exact h1
    · simp only [Option.some.injEq, Prod.mk.injEq] at h
      rw [h.2] at h2
      exact h2
    · simp only [Option.some.injEq, Prod.mk.injEq] at h
      rw [h.2] at h1
      exact h1

/-- `pBat_ForMakeInfo`, pbat/command/pBat_For.c:624-695: `none` if the options are refused. -/
def forMakeInfo (o : ForOpts) (s : List Char) : Res (Option ForOpts) :=
  match h : forGetSpecifier s with
  | none => .ok (some o)
  | some (none, _, _) => .ok none
  | some (some t, x, r) =>
    have := forGetSpecifier_shorter h
    match forSetOption o t (x.drop (specSkip t)) with
    | .ok (some o') => forMakeInfo o' r
    | .ok none => .ok none
    | .ub => .ub
    | .hang => .hang
termination_by s.length

/-- The options of a FOR /F command, one parameter after the other, pbat/command/pBat_For.c:192-200. -/
def forAllOptions (o : ForOpts) : List (List Char) → Res (Option ForOpts)
  | [] => .ok (some o)
  | p :: ps =>
    match forMakeInfo o p with
    | .ok (some o') => forAllOptions o' ps
    | .ok none => .ok none
    | .ub => .ub
    | .hang => .hang

end PBat
