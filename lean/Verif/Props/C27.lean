import Verif.Lemmas.IfExp
/-
C27: bracketed expressions of IF.
-/
namespace PBat
open Spec

/-- The truth value of bracketed conditions in which no group mixes AND and OR, nested to any depth, with any tests, NOT
before tests, and any case of the keywords, read from any way of writing the words: if the result is defined, it is the value of the
formula, and it is defined when the variable read before being set happens to hold 0.
Missing: groups that mix AND and OR (`C27_precedence`), and the read of an unset variable
(`C27_and_undefined`, `C27_and_garbage`). -/
theorem C27_value_partial {q : Char → Bool} (hq : q '"' = true) (hqc : q '^' = true) (w : IfWorld) {line rest : List Char} {s : Conds}
    (hc : s.Clear) (hu : (Form.group s).Uniform) (h : ParamPrefix q line (Form.group s).words rest)
    (hex : ∀ a ∈ (Form.group s).words, w.ex (escape q a) = .ok a) :
    (∀ c, ifCond w none line = .ok c → c = .value ((Form.group s).value (testValue w false)) rest) ∧
      ifCond w (some 0) line = .ok (.value ((Form.group s).value (testValue w false)) rest) := by
  have h1 := ifBrackets_group hq hqc w false hc h hex
  have hv := uniform_form (testValue w false) (Form.group s) (by rw [Form.Clear]; exact hc) hu
  rw [hv] at h1
  rw [ifCond_group hq hqc w none h hex, ifCond_group hq hqc w (some 0) h hex]
  refine ⟨fun c hcv => ?_, h1.2⟩
  rcases h1.1 with h | h <;> rw [h] at hcv
  · cases hcv
  · exact (Res.ok.inj hcv).symm

/-- The same after /i, the tests ignoring case. -/
theorem C27_value_i_partial {q : Char → Bool} (hq : q '"' = true) (hqc : q '^' = true) (w : IfWorld) {line rest o : List Char} {s : Conds}
    (hc : s.Clear) (hu : (Form.group s).Uniform) (ho : fold o = "/i".toList)
    (h : ParamPrefix q line (o :: (Form.group s).words) rest)
    (hex : ∀ a ∈ o :: (Form.group s).words, w.ex (escape q a) = .ok a) :
    (∀ c, ifCond w none line = .ok c → c = .value ((Form.group s).value (testValue w true)) rest) ∧
      ifCond w (some 0) line = .ok (.value ((Form.group s).value (testValue w true)) rest) := by
  obtain ⟨line', hp, he⟩ := ifCond_group_i hq hqc w none ho h hex
  obtain ⟨line'', hp', he'⟩ := ifCond_group_i hq hqc w (some 0) ho h hex
  have h1 := ifBrackets_group hq hqc w true hc hp (fun a ha => hex a (by simp [ha]))
  have h2 := ifBrackets_group hq hqc w true hc hp' (fun a ha => hex a (by simp [ha]))
  have hv := uniform_form (testValue w true) (Form.group s) (by rw [Form.Clear]; exact hc) hu
  rw [hv] at h1 h2
  rw [he, he']
  refine ⟨fun c hcv => ?_, h2.2⟩
  rcases h1.1 with h | h <;> rw [h] at hcv
  · cases hcv
  · exact (Res.ok.inj hcv).symm

/-- All bracketed conditions, mixing AND and OR or not, have the value of the formula read with OR before AND. -/
theorem C27_or_first {q : Char → Bool} (hq : q '"' = true) (hqc : q '^' = true) (w : IfWorld) {line rest : List Char} {s : Conds}
    (hc : s.Clear) (h : ParamPrefix q line (Form.group s).words rest) (hex : ∀ a ∈ (Form.group s).words, w.ex (escape q a) = .ok a) :
    (∀ c, ifCond w none line = .ok c → c = .value ((Form.group s).valueOr (testValue w false)) rest) ∧
      ifCond w (some 0) line = .ok (.value ((Form.group s).valueOr (testValue w false)) rest) := by
  have h1 := ifBrackets_group hq hqc w false hc h hex
  rw [ifCond_group hq hqc w none h hex, ifCond_group hq hqc w (some 0) h hex]
  refine ⟨fun c hcv => ?_, h1.2⟩
  rcases h1.1 with h | h <;> rw [h] at hcv
  · cases hcv
  · exact (Res.ok.inj hcv).symm

/-- Conditions connected by OR only do not read the unset variable. -/
theorem C27_or_defined {q : Char → Bool} (hq : q '"' = true) (hqc : q '^' = true) (w : IfWorld) {line rest : List Char} {a b : Test} {na nb : Option (List Char)}
    {o : List Char} (hc : (Conds.more (.test na a) o (.one (.test nb b))).Clear) (ho : fold o = "or".toList)
    (h : ParamPrefix q line (Form.group (.more (.test na a) o (.one (.test nb b)))).words rest)
    (hex : ∀ x ∈ (Form.group (.more (.test na a) o (.one (.test nb b)))).words, w.ex (escape q x) = .ok x) (u : Option Int) :
    ifCond w u line = .ok (.value ((testValue w false a != na.isSome) || (testValue w false b != nb.isSome)) rest) := by
  rw [ifCond_group hq hqc w u h hex]
  have hw := ifWords_prefix hq hqc w.ex h hex 0 (Opens_group _ hc)
  have hcl := hc
  rw [Conds.Clear, Conds.Clear] at hcl
  obtain ⟨h1, -, h2⟩ := hcl
  have hna : fold o ≠ "and".toList := by rw [ho]; decide
  have hpe : parseExp (Form.group (.more (.test na a) o (.one (.test nb b)))).words =
      .ok (.inl (.node false (.test (Form.test na a).words) (.test (Form.test nb b).words))) := by
    have single : ∀ (n : Option (List Char)) (t : Test), (Form.test n t).Clear →
        suppress (Form.test n t).words = .ok (Form.test n t).words ∧
        parseExp (Form.test n t).words = .ok (.inl (.test (Form.test n t).words)) := by
      intro n t ht
      have hcl : (Conds.one (.test n t)).Clear := by rw [Conds.Clear]; exact ht
      have hs := suppress_conds (.one (.test n t)) hcl
      rw [show (Conds.one (.test n t)).strip = .one (.test n t) by rw [Conds.strip]; simp, Conds.words] at hs
      have ha := ifCut_conds (tok := "AND".toList) (.inl rfl) _ hcl
      have hoo := ifCut_conds (tok := "OR".toList) (.inr rfl) _ hcl
      rw [Conds.words] at ha hoo
      simp only [Conds.cut, Option.map_none] at ha hoo
      refine ⟨hs, ?_⟩
      rw [parseExp.eq_1, hs]
      cases hw : (Form.test n t).words with
      | nil => exact absurd hw (test_words_ne n t)
      | cons x r =>
        rw [hw] at ha hoo
        simp only [ha, hoo]
    obtain ⟨s1, p1⟩ := single na a h1
    obtain ⟨s2, p2⟩ := single nb b h2
    have hs := suppress_conds (.one (.group (.more (.test na a) o (.one (.test nb b))))) (by rw [Conds.Clear, Form.Clear]; exact hc)
    rw [show (Conds.one (.group (.more (.test na a) o (.one (.test nb b))))).strip = .more (.test na a) o (.one (.test nb b)) by
      rw [Conds.strip, Conds.strip]; simp, Conds.words] at hs
    have ha := ifCut_conds (tok := "AND".toList) (.inl rfl) _ hc
    have hoo := ifCut_conds (tok := "OR".toList) (.inr rfl) _ hc
    rw [show fold "AND".toList = "and".toList by decide] at ha
    rw [show fold "OR".toList = "or".toList by decide] at hoo
    simp only [Conds.cut, if_neg hna, if_pos ho, Option.map_none, Option.map_some] at ha hoo
    have hne := test_words_ne nb b
    rw [parseExp.eq_1, hs]
    cases hw : (Conds.more (.test na a) o (.one (.test nb b))).words with
    | nil => exact absurd hw (Conds.words_ne _)
    | cons x r =>
      rw [hw] at ha hoo
      simp only [ha, hoo, Conds.words]
      rw [if_neg hne, s1, s2]
      simp only
      rw [if_pos, p1, p2]
      · rfl
      · simp only [Form.words, Conds.words]
        constructor <;> simp <;> omega
  unfold ifBrackets
  rw [hw]
  simp only
  rw [hpe]
  simp only
  have e1 := execTest_form w false na a h1
  have e2 := execTest_form w false nb b h2
  have hev : evalExp w false u (.node false (.test (Form.test na a).words) (.test (Form.test nb b).words)) =
      .ok (some ((testValue w false a != na.isSome) || (testValue w false b != nb.isSome))) := by
    rw [evalExp, evalExp, evalExp, e1, e2, Form.valueOr, Form.valueOr]
    simp
  rw [hev]

/-! ### Violations -/

/-- Whenever the first operand of AND is true, the result is undefined, whatever the second operand. -/
theorem C27_and_undefined (w : IfWorld) (ci : Bool) (l r : IfExp) (h : evalExp w ci none l = .ok (some true)) :
    evalExp w ci none (.node true l r) = .ub := by
  rw [evalExp, h]; simp

/-- A line whose result is undefined. -/
theorem C27_and_undefined_line :
    ifCond ⟨.ok, fun _ => false, fun _ => false, [], sampleStrtod⟩ none " [ a EQU a AND b EQU b ] x".toList = .ub := by
  decide +kernel

/-- If the unset variable holds 1, `true AND false` is true. -/
theorem C27_and_garbage :
    ifCond ⟨.ok, fun _ => false, fun _ => false, [], sampleStrtod⟩ (some 1) " [ a EQU a AND b EQU c ] x".toList =
      .ok (.value true " x".toList) := by
  decide +kernel

/-- Documentation: AND has precedence over OR.  In the program OR binds tighter: `true OR true AND false` is false. -/
theorem C27_precedence :
    (Form.group (.more (.test none (.compare ['a'] "EQU".toList ['a'])) "OR".toList
      (.more (.test none (.compare ['a'] "EQU".toList ['a'])) "AND".toList
        (.one (.test none (.compare ['a'] "EQU".toList ['b'])))))).value (testValue ⟨.ok, fun _ => false, fun _ => false, [], sampleStrtod⟩ false) = true ∧
    ifCond ⟨.ok, fun _ => false, fun _ => false, [], sampleStrtod⟩ (some 0) " [ a EQU a OR a EQU a AND a EQU b ] x".toList =
      .ok (.value false " x".toList) := by
  constructor <;> decide +kernel

/-- NOT before a group is refused. -/
theorem C27_not_group :
    ifCond ⟨.ok, fun _ => false, fun _ => false, [], sampleStrtod⟩ (some 0) " [ NOT [ a EQU b ] ] x".toList = .ok .error := by
  decide +kernel

/-- A connective without its right operand is accepted inside brackets. -/
theorem C27_dangling :
    ifCond ⟨.ok, fun _ => false, fun _ => false, [], sampleStrtod⟩ (some 0) " [ [ a EQU a AND ] OR b EQU c ] x".toList =
      .ok (.value true " x".toList) := by
  decide +kernel

/-- A connective without its left operand makes the program use memory it freed. -/
theorem C27_leading :
    ifCond ⟨.ok, fun _ => false, fun _ => false, [], sampleStrtod⟩ (some 0) " [ AND a EQU b ] x".toList = .ub := by
  decide +kernel

/-! ### Examples -/

/-- A formula of the theorems: `[ [ NOT defined x or a lss 5 ] AND y == z ]`. -/
example : (Form.group (.more (.group (.more (.test (some "NOT".toList) (.object "defined".toList ['x'])) "or".toList
      (.one (.test none (.compare ['a'] "lss".toList ['5']))))) "AND".toList (.one (.test none (.compare ['y'] "==".toList ['z']))))).Uniform ∧
    (Conds.more (.group (.more (.test (some "NOT".toList) (.object "defined".toList ['x'])) "or".toList
      (.one (.test none (.compare ['a'] "lss".toList ['5']))))) "AND".toList (.one (.test none (.compare ['y'] "==".toList ['z'])))).Clear := by
  constructor
  · simp only [Form.Uniform, Conds.Uniform, Conds.all]
    decide
  · simp only [Conds.Clear, Form.Clear, Test.Clear]
    refine ⟨⟨⟨by intro n hn; cases hn; decide, by decide⟩, by decide, by simp, by decide, by decide, by decide, by decide, by decide, ⟨_, .lss (by decide)⟩, by decide⟩,
      by decide, by simp, by decide, by decide, by decide, by decide, by decide, ⟨_, .same rfl⟩, by decide⟩

example : ParamPrefix (fun c => c == '"' || c == '^') " [ a EQU b ] x".toList
    (Form.group (.one (.test none (.compare ['a'] "EQU".toList ['b'])))).words " x".toList := by
  have wd : ∀ a : List Char, a ≠ [] → (∀ c ∈ a, ¬ Blank c) → '"' ∉ a → (∀ c ∈ a, (c == '"' || c == '^') = false) →
      Written (fun c => c == '"' || c == '^') a a := fun a h1 h2 h3 h4 => .word h1 h2 h3 h4
  exact .cons (w := [' ']) (b := ' ') (by decide) (wd ['['] (by decide) (by decide) (by decide) (by decide)) (by decide)
    (.cons (w := [' ']) (b := ' ') (by decide) (wd ['a'] (by decide) (by decide) (by decide) (by decide)) (by decide)
    (.cons (w := [' ']) (b := ' ') (by decide) (wd "EQU".toList (by decide) (by decide) (by decide) (by decide)) (by decide)
    (.cons (w := [' ']) (b := ' ') (by decide) (wd ['b'] (by decide) (by decide) (by decide) (by decide)) (by decide)
    (.last (w := [' ']) (by decide) (wd [']'] (by decide) (by decide) (by decide) (by decide)) (.inr ⟨' ', ['x'], rfl, by decide⟩)))))

end PBat
