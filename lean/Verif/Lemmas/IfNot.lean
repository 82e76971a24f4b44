import Verif.Lemmas.IfExp
/-
Lemmas on the keywords of IF.
-/
namespace PBat
open Spec

/-- Keywords testing an object, in any case, and their tests. -/
inductive ObjTest (w : IfWorld) : List Char → (List Char → Bool) → Prop
  | exist {k} : fold k = "exist".toList → ObjTest w k w.exist
  | defined {k} : fold k = "defined".toList → ObjTest w k w.defined
  | level {k} : fold k = "errorlevel".toList → ObjTest w k fun x => fold x = fold w.level

theorem fold_take {k v : List Char} (h : fold k = v) (n : Nat) (hn : v.length ≤ n) : k.take n = k := by
  have := congrArg List.length h
  unfold fold at this
  rw [List.length_map] at this
  exact List.take_of_length_le (by omega)

theorem ifKeyword_object (w : IfWorld) (neg : Bool) (u : Option Int) {k : List Char} {test : List Char → Bool} (hk : ObjTest w k test)
    (param next : List Char) : ifKeyword w false neg u param (k.take 10) next = ifObject w neg test next := by
  unfold ifKeyword
  cases hk with
  | exist h => rw [fold_take h 10 (by decide), if_pos ((stricmp_zero _ _).2 (by rw [h]; decide))]; rfl
  | defined h =>
    rw [fold_take h 10 (by decide), if_neg (fun e => absurd ((stricmp_zero _ _).1 e) (by rw [h]; decide)),
      if_pos ((stricmp_zero _ _).2 (by rw [h]; decide))]; rfl
  | level h =>
    rw [fold_take h 10 (by decide), if_neg (fun e => absurd ((stricmp_zero _ _).1 e) (by rw [h]; decide)),
      if_neg (fun e => absurd ((stricmp_zero _ _).1 e) (by rw [h]; decide)), if_pos ((stricmp_zero _ _).2 (by rw [h]; decide))]
    simp only [stricmp_zero]; rfl

theorem objTest_words {w : IfWorld} {k : List Char} {test : List Char → Bool} (hk : ObjTest w k test) :
    fold (k.take 10) ≠ "/i".toList ∧ fold (k.take 10) ≠ "not".toList := by
  cases hk with
  | exist h | defined h | level h => rw [fold_take h 10 (by decide), h]; decide

theorem ifObject_prefix {q : Char → Bool} (hq : q '"' = true) (hqc : q '^' = true) (w : IfWorld) (neg : Bool) (test : List Char → Bool)
    {line rest x : List Char} (h : ParamPrefix q line [x] rest) (hex : w.ex (escape q x) = .ok x) (hx : x.length ≤ 4095) :
    ifObject w neg test line = .ok (.value (test x != neg) rest) := by
  obtain ⟨r, hr, he, -⟩ := nextParam_prefix hq hqc w.ex h hex
  unfold ifObject
  rw [hr]
  simp only
  rw [List.take_of_length_le hx, he rfl]

theorem strstr_equals {l : List Char} (h : '=' ∉ l) (r : List Char) : strstr ['=', '='] (l ++ '=' :: '=' :: r) = some l.length := by
  induction l with
  | nil => rw [List.nil_append, strstr]; simp
  | cons c l ih =>
    have hc : c ≠ '=' := fun e => h (by simp [e])
    rw [List.cons_append, strstr, if_neg, ih fun e => h (by simp [e])]
    · simp
    · simp [List.isPrefixOf, hc.symm]

/-- A word that is not taken for a keyword. -/
def PlainOperand (a : List Char) : Prop :=
  a ≠ ['['] ∧ fold (a.take 10) ∉ ["/i".toList, "not".toList, "exist".toList, "defined".toList, "errorlevel".toList]

theorem ifKeyword_ordinary (w : IfWorld) (ci neg : Bool) (u : Option Int) {a : List Char} (ha : PlainOperand a) (param next : List Char) :
    ifKeyword w ci neg u param (a.take 10) next = ifCompare w ci neg u param := by
  unfold PlainOperand at ha
  simp only [List.mem_cons, List.not_mem_nil, or_false, not_or] at ha
  obtain ⟨-, -, -, h3, h4, h5⟩ := ha
  unfold ifKeyword
  rw [if_neg (fun e => h3 ((stricmp_zero _ _).1 e)), if_neg (fun e => h4 ((stricmp_zero _ _).1 e)), if_neg (fun e => h5 ((stricmp_zero _ _).1 e))]

/-- The options in front of a condition: nothing, /i, NOT, or /i NOT, in any case. -/
inductive Options : List (List Char) → Bool → Bool → Prop
  | none : Options [] false false
  | i {o} : fold o = "/i".toList → Options [o] true false
  | neg {n} : fold n = "not".toList → Options [n] false true
  | both {o n} : fold o = "/i".toList → fold n = "not".toList → Options [o, n] true true

/-- Reading the options. -/
theorem ifCond_options {q : Char → Bool} (hq : q '"' = true) (hqc : q '^' = true) (w : IfWorld) (u : Option Int) {os : List (List Char)} {ci neg : Bool}
    (ho : Options os ci neg) {a : List Char} {as : List (List Char)} (ha : PlainOperand a) {line rest : List Char} (h : ParamPrefix q line (os ++ a :: as) rest)
    (hex : ∀ x ∈ os ++ a :: as, w.ex (escape q x) = .ok x) :
    ∃ param, ParamPrefix q param (a :: as) rest ∧ ifCond w u line = ifCompare w ci neg u param := by
  have ha' := ha
  unfold PlainOperand at ha'
  simp only [List.mem_cons, List.not_mem_nil, or_false, not_or] at ha'
  obtain ⟨-, h1, h2, -⟩ := ha'
  cases ho with
  | none =>
    rw [List.nil_append] at h hex
    obtain ⟨r, hr, -, hp⟩ := nextParam_prefix hq hqc w.ex h (hex _ (by simp))
    refine ⟨line, h, ?_⟩
    unfold ifCond
    rw [hr]
    simp only
    rw [if_neg (fun e => h1 ((stricmp_zero _ _).1 e)), ifNot, if_neg (fun e => h2 ((stricmp_zero _ _).1 e)), ifKeyword_ordinary _ _ _ _ ha]
  | @i o ho =>
    obtain ⟨r, hr, -, hp⟩ := nextParam_prefix hq hqc w.ex h (hex _ (by simp))
    have hp := hp (by simp)
    obtain ⟨r2, hr2, -⟩ := nextParam_prefix hq hqc w.ex hp (hex _ (by simp))
    refine ⟨r, hp, ?_⟩
    unfold ifCond
    rw [hr]
    simp only
    rw [fold_take ho 10 (by decide), if_pos ((stricmp_zero _ _).2 (by rw [ho]; decide)), hr2]
    simp only
    rw [ifNot, if_neg (fun e => h2 ((stricmp_zero _ _).1 e)), ifKeyword_ordinary _ _ _ _ ha]
  | @neg n hn =>
    obtain ⟨r, hr, -, hp⟩ := nextParam_prefix hq hqc w.ex h (hex _ (by simp))
    have hp := hp (by simp)
    obtain ⟨r2, hr2, -⟩ := nextParam_prefix hq hqc w.ex hp (hex _ (by simp))
    refine ⟨r, hp, ?_⟩
    unfold ifCond
    rw [hr]
    simp only
    rw [fold_take hn 10 (by decide), if_neg (fun e => absurd ((stricmp_zero _ _).1 e) (by rw [hn]; decide)), ifNot,
      if_pos ((stricmp_zero _ _).2 (by rw [hn]; decide)), hr2]
    simp only
    rw [ifKeyword_ordinary _ _ _ _ ha]
  | @both o n ho hn =>
    obtain ⟨r, hr, -, hp⟩ := nextParam_prefix hq hqc w.ex h (hex _ (by simp))
    have hp := hp (by simp)
    obtain ⟨r2, hr2, -, hp2⟩ := nextParam_prefix hq hqc w.ex hp (hex _ (by simp))
    have hp2 := hp2 (by simp)
    obtain ⟨r3, hr3, -⟩ := nextParam_prefix hq hqc w.ex hp2 (hex _ (by simp))
    refine ⟨r2, hp2, ?_⟩
    unfold ifCond
    rw [hr]
    simp only
    rw [fold_take ho 10 (by decide), if_pos ((stricmp_zero _ _).2 (by rw [ho]; decide)), hr2]
    simp only
    rw [fold_take hn 10 (by decide), ifNot, if_pos ((stricmp_zero _ _).2 (by rw [hn]; decide)), hr3]
    simp only
    rw [ifKeyword_ordinary _ _ _ _ ha]

/-- The value of a comparison that has one. -/
def cmpHolds (S : Strtod) (op a b : List Char) (ci : Bool) : Bool := (extTest S op a b ci).getD false

end PBat
