import Verif.Lemmas.IfNot
/-
C49: IF and IF NOT.
-/
namespace PBat
open Spec

/-- IF DEFINED, EXIST and ERRORLEVEL: the object written is tested (ERRORLEVEL compares the texts), and NOT negates. -/
theorem C49_object {q : Char → Bool} (hq : q '"' = true) (hqc : q '^' = true) (w : IfWorld) (u : Option Int) {k x : List Char}
    {test : List Char → Bool} (hk : ObjTest w k test) (hx : x.length ≤ 4095) {line line' rest n : List Char} (hn : fold n = "not".toList)
    (h : ParamPrefix q line [k, x] rest) (h' : ParamPrefix q line' [n, k, x] rest) (hex : ∀ a ∈ [n, k, x], w.ex (escape q a) = .ok a) :
    ifCond w u line = .ok (.value (test x) rest) ∧ ifCond w u line' = .ok (.value (!test x) rest) := by
  have hw := objTest_words hk
  constructor
  · obtain ⟨r, hr, -, hp⟩ := nextParam_prefix hq hqc w.ex h (hex _ (by simp))
    unfold ifCond
    rw [hr]
    simp only
    rw [if_neg (fun e => hw.1 ((stricmp_zero _ _).1 e)), ifNot, if_neg (fun e => hw.2 ((stricmp_zero _ _).1 e)), ifKeyword_object w false u hk,
      ifObject_prefix hq hqc w false test (hp (by simp)) (hex _ (by simp)) hx]
    simp
  · obtain ⟨r, hr, -, hp⟩ := nextParam_prefix hq hqc w.ex h' (hex _ (by simp))
    obtain ⟨r2, hr2, -, hp2⟩ := nextParam_prefix hq hqc w.ex (hp (by simp)) (hex _ (by simp))
    unfold ifCond
    rw [hr]
    simp only
    rw [fold_take hn 10 (by decide), if_neg (fun e => absurd ((stricmp_zero _ _).1 e) (by rw [hn]; decide)), ifNot,
      if_pos ((stricmp_zero _ _).2 (by rw [hn]; decide)), hr2]
    simp only
    rw [ifKeyword_object w true u hk, ifObject_prefix hq hqc w true test (hp2 (by simp)) (hex _ (by simp)) hx]
    simp

/-- Comparisons with `==`: the texts around the first `==` are compared, NOT negates, with or without /i.  The left text is not empty,
contains no `=`, and does not end with a quote. -/
theorem C49_same {q : Char → Bool} (hq : q '"' = true) (hqc : q '^' = true) (w : IfWorld) (u : Option Int) {os : List (List Char)} {ci neg : Bool}
    (ho : Options os ci neg) {l r : List Char} (hl : l ≠ []) (hle : '=' ∉ l) (hlq : l.getLast? ≠ some '"') (ha : PlainOperand (l ++ '=' :: '=' :: r))
    {line rest : List Char} (h : ParamPrefix q line (os ++ [l ++ '=' :: '=' :: r]) rest)
    (hex : ∀ x ∈ os ++ [l ++ '=' :: '=' :: r], w.ex (escape q x) = .ok x) :
    ifCond w u line = .ok (.value (cmpHolds w.strtod "==".toList l r ci != neg) rest) := by
  obtain ⟨param, hp, he⟩ := ifCond_options hq hqc w u ho ha h hex
  obtain ⟨nx, hn, hr, -⟩ := nextParam_prefix hq hqc w.ex hp (hex _ (by simp))
  rw [he]
  unfold ifCompare
  rw [hn]
  simp only
  rw [if_neg ha.1, strstr_equals hle]
  simp only
  rw [List.take_left, show l.length + 2 = (l ++ ['=', '=']).length by simp, show l ++ '=' :: '=' :: r = (l ++ ['=', '=']) ++ r by simp, List.drop_left, hr rfl]
  unfold ifOld
  have hlr : l.reverse ≠ [] := by simp [hl]
  cases hrev : l.reverse with
  | nil => exact absurd hrev hlr
  | cons c cs =>
    have hlast : l.getLast? = some c := by rw [List.getLast?_eq_head?_reverse, hrev]; rfl
    simp only
    rw [if_neg (by rintro rfl; exact hlq hlast)]
    obtain ⟨b, hb⟩ := extTest_some w.strtod "==".toList l r ci ⟨_, .same rfl⟩
    unfold cmpHolds
    rw [hb]
    rfl

/-- Comparisons with a name: the operands written are compared; NOT is accepted but has no effect.  So the claim
fails for all of them. -/
theorem C49_not_ignored {q : Char → Bool} (hq : q '"' = true) (hqc : q '^' = true) (w : IfWorld) (u : Option Int) {os : List (List Char)} {ci neg : Bool}
    (ho : Options os ci neg) {a op b : List Char} {c : Cmp} (hop : CmpName op c) (ha : PlainOperand a) (hae : '=' ∉ a) {line rest : List Char}
    (h : ParamPrefix q line (os ++ [a, op, b]) rest) (hex : ∀ x ∈ os ++ [a, op, b], w.ex (escape q x) = .ok x) :
    ifCond w u line = .ok (.value (cmpHolds w.strtod op a b ci) rest) := by
  obtain ⟨param, hp, he⟩ := ifCond_options hq hqc w u ho ha h hex
  obtain ⟨n1, hn1, -, hp1⟩ := nextParam_prefix hq hqc w.ex hp (hex _ (by simp))
  obtain ⟨n2, hn2, -, hp2⟩ := nextParam_prefix hq hqc w.ex (hp1 (by simp)) (hex _ (by simp))
  obtain ⟨n3, hn3, hr, -⟩ := nextParam_prefix hq hqc w.ex (hp2 (by simp)) (hex _ (by simp))
  have hs : strstr ['=', '='] a = none := by
    clear h hex hp he hn1 ha
    induction a with
    | nil => rfl
    | cons x a ih =>
      have hx : x ≠ '=' := fun e => hae (by simp [e])
      rw [strstr, if_neg (by simp [List.isPrefixOf, hx.symm]), ih fun e => hae (by simp [e])]
      rfl
  have hlen : op.take 10 = op := by
    cases hop with
    | same h => rw [h]; rfl
    | equ h | neq h | lss h | leq h | gtr h | geq h => exact fold_take h 10 (by decide)
  rw [he]
  unfold ifCompare
  rw [hn1]
  simp only
  rw [if_neg ha.1, hs]
  simp only
  rw [hn2]
  simp only
  rw [hn3]
  simp only
  obtain ⟨v, hv⟩ := extTest_some w.strtod op a b ci ⟨c, hop⟩
  rw [hlen, hv, hr rfl]
  unfold cmpHolds
  rw [hv]
  rfl

/-- In particular IF and IF NOT take the same branch. -/
theorem C49_negation_fails :
    ifCond ⟨.ok, fun _ => false, fun _ => false, [], sampleStrtod⟩ none " 1 EQU 1 x".toList = .ok (.value true " x".toList) ∧
    ifCond ⟨.ok, fun _ => false, fun _ => false, [], sampleStrtod⟩ none " NOT 1 EQU 1 x".toList = .ok (.value true " x".toList) := by
  constructor <;> decide +kernel

/-- The same for bracketed expressions. -/
theorem C49_brackets_fail :
    ifCond ⟨.ok, fun _ => false, fun _ => false, [], sampleStrtod⟩ none " [ 1 EQU 1 ] x".toList = .ok (.value true " x".toList) ∧
    ifCond ⟨.ok, fun _ => false, fun _ => false, [], sampleStrtod⟩ none " NOT [ 1 EQU 1 ] x".toList = .ok (.value true " x".toList) := by
  constructor <;> decide +kernel

/-- With an empty left text, as left by an undefined variable, `==` reads before the buffer. -/
theorem C49_empty_left (w : IfWorld) (hw : w.ex "==x".toList = .ok "==x".toList) : ifCond w none " ==x y".toList = .ub := by
  have hn : nextParam stdDelims w.ex " ==x y".toList = .ok (some ("==x".toList, " y".toList)) := by
    rw [nextParam.eq_1]
    have e1 : skipBlanks " ==x y".toList = "==x y".toList := by decide
    have e2 : paramEnd stdDelims "==x y".toList 0 = some 3 := by decide +kernel
    simp only [e1, e2]
    rw [if_neg (by decide), show paramText "==x y".toList (some 3) = .ok "==x".toList by decide]
    simp only
    rw [if_neg (by decide), hw]
    rfl
  unfold ifCond
  rw [hn]
  simp only
  rw [if_neg (by decide), ifNot, if_neg (by decide), ifKeyword, if_neg (by decide), if_neg (by decide), if_neg (by decide), ifCompare, hn]
  simp only
  rw [if_neg (by decide)]
  rfl

/-- Keywords are cut to ten characters: a comparison whose left text begins with `errorlevel` tests the error level
against the next word. -/
theorem C49_long_word :
    ifCond ⟨.ok, fun _ => false, fun _ => false, "0".toList, sampleStrtod⟩ none " errorlevel1==errorlevel1 0 x".toList =
      .ok (.value true " x".toList) ∧
    ifCond ⟨.ok, fun _ => false, fun _ => false, "0".toList, sampleStrtod⟩ none " errorlevel1==errorlevel1 x".toList =
      .ok (.value false []) := by
  constructor <;> decide +kernel

/-! ### Examples -/

example : PlainOperand "abc==def".toList := ⟨by decide, by decide⟩

example : ObjTest ⟨.ok, fun _ => false, fun _ => false, [], sampleStrtod⟩ "Defined".toList fun _ => false := .defined (by decide)

example : ifCond ⟨.ok, fun x => x == "v".toList, fun _ => false, [], sampleStrtod⟩ none " /i NOT Ab==aB x".toList =
    .ok (.value false " x".toList) := by decide +kernel

end PBat
