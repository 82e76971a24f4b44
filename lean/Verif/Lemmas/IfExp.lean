import Verif.Lemmas.If
/-
Lemmas on the bracketed expressions of IF.
-/
namespace PBat
open Spec

theorem not_reserved {t : List Char} (h : ¬ Reserved t) :
    t ≠ ['['] ∧ t ≠ [']'] ∧ fold t ≠ "and".toList ∧ fold t ≠ "or".toList := by
  unfold Reserved at h; grind

theorem fold_not_bracket {t : List Char} {w : List Char} (h : fold t = w) (hw : w ≠ ['['] ∧ w ≠ [']']) : t ≠ ['['] ∧ t ≠ [']'] := by
  constructor
  · rintro rfl; exact hw.1 (by rw [← h]; decide)
  · rintro rfl; exact hw.2 (by rw [← h]; decide)

theorem cmpName_clear {op : List Char} {c : Cmp} (h : CmpName op c) : ¬ Reserved op := by
  unfold Reserved
  cases h with
  | same h => subst h; decide
  | equ h | neq h | lss h | leq h | gtr h | geq h =>
    have := fold_not_bracket h (by decide)
    rw [h]
    rintro (h | h | h | h)
    · exact this.1 h
    · exact this.2 h
    · revert h; decide
    · revert h; decide

theorem kw_clear {kw : List Char} (h : fold kw = "defined".toList ∨ fold kw = "exist".toList ∨ fold kw = "errorlevel".toList) :
    ¬ Reserved kw := by
  unfold Reserved
  rcases h with h | h | h
  all_goals
    have := fold_not_bracket h (by decide)
    rw [h]
    rintro (h | h | h | h)
    · exact this.1 h
    · exact this.2 h
    · revert h; decide
    · revert h; decide

theorem not_clear {n : List Char} (h : fold n = "not".toList) : ¬ Reserved n := by
  unfold Reserved
  have := fold_not_bracket h (by decide)
  rw [h]
  rintro (h | h | h | h)
  · exact this.1 h
  · exact this.2 h
  · revert h; decide
  · revert h; decide

theorem test_words_clear {neg : Option (List Char)} {t : Test} (h : (Form.test neg t).Clear) :
    ∀ w ∈ (Form.test neg t).words, ¬ Reserved w := by
  rw [Form.Clear] at h
  obtain ⟨h1, h2⟩ := h
  rw [Form.words]
  intro w hw
  rcases List.mem_append.1 hw with hw | hw
  · exact not_clear (h1 w (by simpa using hw))
  · cases t with
    | object kw x =>
      rw [Test.Clear] at h2
      rw [Test.words] at hw
      simp only [List.mem_cons, List.not_mem_nil, or_false] at hw
      rcases hw with rfl | rfl
      · exact kw_clear h2.1
      · exact h2.2
    | compare a op b =>
      rw [Test.Clear] at h2
      rw [Test.words] at hw
      simp only [List.mem_cons, List.not_mem_nil, or_false] at hw
      obtain ⟨ha, -, -, -, -, ⟨c, hc⟩, hb⟩ := h2
      rcases hw with rfl | rfl | rfl
      · exact ha
      · exact cmpName_clear hc
      · exact hb

theorem test_words_ne (neg : Option (List Char)) (t : Test) : (Form.test neg t).words ≠ [] := by
  rw [Form.words]
  cases t <;> simp [Test.words]

theorem Spec.Form.words_ne (f : Form) : f.words ≠ [] := by
  cases f with
  | test neg t => exact test_words_ne neg t
  | group s => rw [Form.words]; simp

theorem Spec.Conds.words_ne (s : Conds) : s.words ≠ [] := by
  cases s with
  | one f => rw [Conds.words]; exact f.words_ne
  | more f c s => rw [Conds.words]; simp

theorem conn_not_bracket {c : List Char} (h : fold c = "and".toList ∨ fold c = "or".toList) : c ≠ ['['] ∧ c ≠ [']'] := by
  rcases h with h | h <;> exact fold_not_bracket h (by decide)

/-! ### Tests -/

/-- The truth value of an atomic test. -/
def testValue (w : IfWorld) (ci : Bool) : Test → Bool
  | .object kw x =>
    if fold kw = "defined".toList then w.defined x else if fold kw = "exist".toList then w.exist x
    else fold x = fold w.level
  | .compare a op b => (extTest w.strtod op a b ci).getD false

theorem extTest_some (S : Strtod) (op a b : List Char) (ci : Bool) (h : ∃ c, CmpName op c) : ∃ r, extTest S op a b ci = some r := by
  have : ∀ x y, ∃ r, cmpOp op x y = some r := by
    intro x y
    obtain ⟨c, hc⟩ := h
    unfold cmpOp
    simp only [stricmp_zero]
    cases hc with
    | same h => subst h; exact ⟨_, if_pos (.inr rfl)⟩
    | equ h | neq h | lss h | leq h | gtr h | geq h =>
      rw [h]
      repeat (first | exact ⟨_, if_pos (by decide)⟩ | rw [if_neg (by decide)])
  unfold extTest
  split <;> exact this _ _

theorem execPlain_test (w : IfWorld) (ci : Bool) (t : Test) (h : t.Clear) :
    execPlain w ci t.words = some (testValue w ci t) ∧ ∃ x r, t.words = x :: r ∧ fold x ≠ "not".toList := by
  cases t with
  | object kw x =>
    rw [Test.Clear] at h
    rw [Test.words, execPlain, testValue]
    simp only [stricmp_zero]
    rcases h.1 with hk | hk | hk
    all_goals
      rw [hk]
      refine ⟨?_, kw, [x], rfl, by rw [hk]; decide⟩
    · rw [if_pos (by decide), if_pos rfl]
    · rw [if_neg (by decide), if_pos (by decide), if_neg (by decide), if_pos rfl]
    · rw [if_neg (by decide), if_neg (by decide), if_pos (by decide), if_neg (by decide), if_neg (by decide)]
  | compare a op b =>
    rw [Test.Clear] at h
    obtain ⟨ha, hn, hd, he, hl, hc, hb⟩ := h
    rw [Test.words, execPlain, testValue]
    simp only [stricmp_zero]
    refine ⟨?_, a, [op, b], rfl, hn⟩
    obtain ⟨r, hr⟩ := extTest_some w.strtod op a b ci hc
    rw [if_neg (fun h => hd (by rw [h]; decide)), if_neg (fun h => he (by rw [h]; decide)), if_neg (fun h => hl (by rw [h]; decide)), hr]
    rfl

theorem execTest_form (w : IfWorld) (ci : Bool) (neg : Option (List Char)) (t : Test) (h : (Form.test neg t).Clear) :
    execTest w ci (Form.test neg t).words = .ok (some ((Form.test neg t).valueOr (testValue w ci))) := by
  rw [Form.Clear] at h
  obtain ⟨h1, x, r, hw, hx⟩ := execPlain_test w ci t h.2
  rw [Form.words, Form.valueOr]
  cases neg with
  | none =>
    rw [Option.toList_none, List.nil_append]
    rw [hw] at h1 ⊢
    rw [execTest, if_neg (fun h => hx (by rw [(stricmp_zero _ _).1 h]; decide)), h1]
    simp
  | some n =>
    rw [Option.toList_some, List.singleton_append, execTest, if_pos ((stricmp_zero _ _).2 (by rw [h.1 n rfl]; decide)), h1]
    simp

/-! ### Removing brackets -/

theorem closesEarly_plain {k : Nat} (hk : 1 ≤ k) {ws : List (List Char)} (h : ∀ w ∈ ws, w ≠ ['['] ∧ w ≠ [']']) (tail : List (List Char)) :
    closesEarly k (ws ++ tail) = closesEarly k tail := by
  induction ws with
  | nil => rfl
  | cons w ws ih =>
    have hw := h w (by simp)
    rw [List.cons_append, closesEarly]
    simp only [hw.1, hw.2, if_false]
    rw [if_neg (by omega)]
    exact ih fun x hx => h x (by simp [hx])

mutual
theorem closesEarly_form (f : Form) (hc : f.Clear) (k : Nat) (hk : 1 ≤ k) (tail : List (List Char)) :
    closesEarly k (f.words ++ tail) = closesEarly k tail := by
  cases f with
  | test neg t =>
    exact closesEarly_plain hk (fun w hw => ⟨(not_reserved (test_words_clear hc w hw)).1, (not_reserved (test_words_clear hc w hw)).2.1⟩) tail
  | group s =>
    rw [Form.Clear] at hc
    rw [Form.words, List.cons_append, closesEarly]
    simp only [if_true]
    rw [if_neg (by omega), List.append_assoc, closesEarly_conds s hc (k + 1) (by omega), List.singleton_append, closesEarly]
    simp only [show ([']'] : List Char) ≠ ['['] by decide, if_false, if_true]
    rw [if_neg (by omega)]
    rfl
theorem closesEarly_conds (s : Conds) (hc : s.Clear) (k : Nat) (hk : 1 ≤ k) (tail : List (List Char)) :
    closesEarly k (s.words ++ tail) = closesEarly k tail := by
  cases s with
  | one f => rw [Conds.Clear] at hc; rw [Conds.words]; exact closesEarly_form f hc k hk tail
  | more f c s =>
    rw [Conds.Clear] at hc
    rw [Conds.words, List.append_assoc, closesEarly_form f hc.1 k hk, List.cons_append, closesEarly]
    have := conn_not_bracket hc.2.1
    simp only [this.1, this.2, if_false]
    rw [if_neg (by omega)]
    exact closesEarly_conds s hc.2.2 k hk tail
end

theorem suppressOne_group (s : Conds) (hc : s.Clear) : suppressOne (Form.group s).words = .ok (some s.words) := by
  rw [Form.words, suppressOne, if_neg (by simp), if_neg (by simp), closesEarly_conds s hc 1 (by omega)]
  rw [show closesEarly 1 [[']']] = false by decide]
  simp

theorem suppressOne_test {neg : Option (List Char)} {t : Test} (h : (Form.test neg t).Clear) (tail : List (List Char)) :
    suppressOne ((Form.test neg t).words ++ tail) = .ok none := by
  have hc := test_words_clear h
  cases hw : (Form.test neg t).words with
  | nil => exact absurd hw (test_words_ne neg t)
  | cons x r =>
    rw [List.cons_append, suppressOne, if_pos]
    exact (not_reserved (hc x (by rw [hw]; simp))).1

theorem suppressOne_more (f : Form) (c : List Char) (s : Conds) (hc : (Conds.more f c s).Clear) :
    suppressOne (Conds.more f c s).words = .ok none := by
  rw [Conds.Clear] at hc
  rw [Conds.words]
  cases f with
  | test neg t => exact suppressOne_test hc.1 _
  | group s' =>
    rw [Form.words, List.cons_append, suppressOne, if_neg (by simp), if_neg (by simp), List.append_assoc]
    have h1 := hc.1
    rw [Form.Clear] at h1
    rw [closesEarly_conds s' h1 1 (by omega), List.singleton_append, closesEarly]
    simp only [show ([']'] : List Char) ≠ ['['] by decide, if_false, if_true]
    rw [if_pos (by simp)]

/-- Formulas without the brackets around them. -/
def Spec.Conds.strip : Conds → Conds
  | .one (.group s) => s.strip
  | s => s

theorem strip_length (s : Conds) : s.strip.words.length ≤ s.words.length := by
  fun_induction Conds.strip s with
  | case1 s ih => rw [Conds.words, Form.words]; simp; omega
  | case2 => exact Nat.le_refl _

theorem strip_clear (s : Conds) (h : s.Clear) : s.strip.Clear := by
  fun_induction Conds.strip s with
  | case1 s ih => rw [Conds.Clear, Form.Clear] at h; exact ih h
  | case2 => exact h

theorem strip_valueOr (v : Test → Bool) (s : Conds) : s.strip.valueOr v false = s.valueOr v false := by
  fun_induction Conds.strip s with
  | case1 s ih => rw [ih, Conds.valueOr, Form.valueOr]; simp
  | case2 => rfl

theorem strip_strip (s : Conds) : s.strip.strip = s.strip := by
  fun_induction Conds.strip s with
  | case1 s ih => exact ih
  | case2 s h => rw [Conds.strip]; exact h

theorem strip_cases (s : Conds) : (∃ neg t, s.strip = .one (.test neg t)) ∨ ∃ f c r, s.strip = .more f c r := by
  fun_induction Conds.strip s with
  | case1 s ih => exact ih
  | case2 s h =>
    cases s with
    | one f =>
      cases f with
      | test neg t => left; exact ⟨neg, t, rfl⟩
      | group s => exact absurd rfl (h s)
    | more f c r => right; exact ⟨f, c, r, rfl⟩

theorem suppress_conds (s : Conds) (hc : s.Clear) : suppress s.words = .ok s.strip.words := by
  fun_induction Conds.strip s with
  | case1 s ih =>
    rw [Conds.Clear, Form.Clear] at hc
    rw [suppress.eq_1, Conds.words, suppressOne_group s hc]
    simp only
    rw [if_pos (by rw [Form.words]; simp; omega)]
    exact ih hc
  | case2 s h =>
    have h1 : suppressOne s.words = .ok none := by
      cases s with
      | one f =>
        cases f with
        | test neg t =>
          rw [Conds.Clear] at hc
          have := suppressOne_test hc []
          rw [List.append_nil] at this
          rw [Conds.words]; exact this
        | group s => exact absurd rfl (h s)
      | more f c r => exact suppressOne_more f c r hc
    rw [suppress.eq_1, h1]

/-! ### Cutting -/

/-- The words at which expressions are cut. -/
def CutTok (tok : List Char) : Prop := tok = "AND".toList ∨ tok = "OR".toList

theorem cutTok_reserved {tok t : List Char} (h : CutTok tok) (hr : ¬ Reserved t) : stricmp t tok ≠ 0 := by
  have := not_reserved hr
  rw [Ne, stricmp_zero]
  rcases h with rfl | rfl
  · intro e; exact this.2.2.1 (by rw [e]; decide)
  · intro e; exact this.2.2.2 (by rw [e]; decide)

theorem cutLoop_plain {tok : List Char} (ht : CutTok tok) (k : Int) {ws : List (List Char)} (h : ∀ w ∈ ws, ¬ Reserved w) (tail : List (List Char)) :
    cutLoop tok k (ws ++ tail) = (cutLoop tok k tail).map fun x => (ws ++ x.1, x.2) := by
  induction ws with
  | nil => simp
  | cons w ws ih =>
    have hw := h w (by simp)
    have hb := not_reserved hw
    rw [List.cons_append, cutLoop, if_neg hb.1, if_neg hb.2.1, if_neg (fun e => cutTok_reserved ht hw e.2), ih fun x hx => h x (by simp [hx])]
    simp [Function.comp_def]

mutual
theorem cutLoop_form {tok : List Char} (ht : CutTok tok) (f : Form) (hc : f.Clear) (k : Int) (hk : 0 ≤ k) (tail : List (List Char)) :
    cutLoop tok k (f.words ++ tail) = (cutLoop tok k tail).map fun x => (f.words ++ x.1, x.2) := by
  cases f with
  | test neg t => exact cutLoop_plain ht k (test_words_clear hc) tail
  | group s =>
    rw [Form.Clear] at hc
    rw [Form.words, List.cons_append, cutLoop, if_pos rfl, List.append_assoc, cutLoop_conds ht s hc (k + 1) (by omega), List.singleton_append,
      cutLoop, if_neg (by decide), if_pos rfl, show k + 1 - 1 = k by omega]
    simp [Function.comp_def]
theorem cutLoop_conds {tok : List Char} (ht : CutTok tok) (s : Conds) (hc : s.Clear) (k : Int) (hk : 1 ≤ k) (tail : List (List Char)) :
    cutLoop tok k (s.words ++ tail) = (cutLoop tok k tail).map fun x => (s.words ++ x.1, x.2) := by
  cases s with
  | one f => rw [Conds.Clear] at hc; rw [Conds.words]; exact cutLoop_form ht f hc k (by omega) tail
  | more f c s =>
    rw [Conds.Clear] at hc
    have := conn_not_bracket hc.2.1
    rw [Conds.words, List.append_assoc, cutLoop_form ht f hc.1 k (by omega), List.cons_append, cutLoop, if_neg this.1, if_neg this.2,
      if_neg (fun e => by have := e.1; omega), cutLoop_conds ht s hc.2.2 k hk tail]
    simp [Function.comp_def]
end

/-- Cutting connected formulas at the first connective `w` of their level. -/
def Spec.Conds.cut (w : List Char) : Conds → Option (Conds × Conds)
  | .one _ => none
  | .more f c s => if fold c = w then some (.one f, s) else (s.cut w).map fun x => (.more f c x.1, x.2)

theorem cutLoop_cut {tok : List Char} (ht : CutTok tok) (s : Conds) (hc : s.Clear) :
    cutLoop tok 0 s.words = (s.cut (fold tok)).map fun x => (x.1.words, x.2.words) := by
  fun_induction Conds.cut (fold tok) s with
  | case1 f =>
    rw [Conds.Clear] at hc
    have := cutLoop_form ht f hc 0 (by omega) []
    rw [List.append_nil] at this
    rw [Conds.words, this, cutLoop]
    rfl
  | case2 f c s h =>
    rw [Conds.Clear] at hc
    have hb := conn_not_bracket hc.2.1
    rw [Conds.words, cutLoop_form ht f hc.1 0 (by omega), cutLoop, if_neg hb.1, if_neg hb.2, if_pos ⟨rfl, (stricmp_zero _ _).2 h⟩]
    simp [Conds.words]
  | case3 f c s h ih =>
    rw [Conds.Clear] at hc
    have hb := conn_not_bracket hc.2.1
    rw [Conds.words, cutLoop_form ht f hc.1 0 (by omega), cutLoop, if_neg hb.1, if_neg hb.2, if_neg (fun e => h ((stricmp_zero _ _).1 e.2)), ih hc.2.2]
    simp only [Option.map_map, Function.comp_def, Conds.words]

theorem ifCut_conds {tok : List Char} (ht : CutTok tok) (s : Conds) (hc : s.Clear) :
    ifCut tok s.words = .ok ((s.cut (fold tok)).map fun x => (x.1.words, x.2.words)) := by
  rw [← cutLoop_cut ht s hc]
  have hh : ∃ t r, s.words = t :: r ∧ t ≠ [']'] ∧ stricmp t tok ≠ 0 := by
    have key : ∀ f : Form, f.Clear → ∃ t r, f.words = t :: r ∧ t ≠ [']'] ∧ stricmp t tok ≠ 0 := by
      intro f hf
      cases f with
      | test neg t =>
        have hcl := test_words_clear hf
        cases hw : (Form.test neg t).words with
        | nil => exact absurd hw (test_words_ne neg t)
        | cons x r =>
          have := hcl x (by rw [hw]; simp)
          exact ⟨x, r, rfl, (not_reserved this).2.1, cutTok_reserved ht this⟩
      | group s =>
        rw [Form.words]
        refine ⟨_, _, rfl, by decide, ?_⟩
        rcases ht with rfl | rfl <;> decide
    cases s with
    | one f => rw [Conds.Clear] at hc; rw [Conds.words]; exact key f hc
    | more f c s =>
      rw [Conds.Clear] at hc
      obtain ⟨t, r, h1, h2, h3⟩ := key f hc.1
      rw [Conds.words, h1]
      exact ⟨t, _, rfl, h2, h3⟩
  obtain ⟨t, r, hw, h1, h2⟩ := hh
  rw [hw, ifCut, if_neg h2, cutLoop]
  by_cases hb : t = ['[']
  · rw [if_pos hb, if_pos hb]; simp
  · rw [if_neg hb, if_neg hb, if_neg h1, if_neg (fun e => h2 e.2)]

theorem cut_facts (w : List Char) (s a b : Conds) (h : s.cut w = some (a, b)) :
    a.words.length < s.words.length ∧ b.words.length < s.words.length ∧ (s.Clear → a.Clear ∧ b.Clear) ∧ a.cut w = none := by
  induction s using Conds.cut.induct (w := w) generalizing a b with
  | case1 => simp [Conds.cut] at h
  | case2 f c s hc =>
    rw [Conds.cut, if_pos hc] at h
    simp only [Option.some.injEq, Prod.mk.injEq] at h
    obtain ⟨rfl, rfl⟩ := h
    simp only [Conds.words, Conds.Clear, Conds.cut]
    have := List.length_pos_iff.2 f.words_ne
    refine ⟨by simp, by simp; omega, by grind, trivial⟩
  | case3 f c s hc ih =>
    rw [Conds.cut, if_neg hc] at h
    simp only [Option.map_eq_some_iff, Prod.mk.injEq, Prod.exists] at h
    obtain ⟨a', b', h1, rfl, rfl⟩ := h
    obtain ⟨i1, i2, i3, i4⟩ := ih a' b' h1
    simp only [Conds.words, Conds.Clear, Conds.cut, if_neg hc, i4]
    refine ⟨by simp; omega, by simp; omega, by grind, rfl⟩

theorem cut_and_value (v : Test → Bool) (s a b : Conds) (acc : Bool) (h : s.cut "and".toList = some (a, b)) :
    s.valueOr v acc = (a.valueOr v acc && b.valueOr v false) := by
  induction s using Conds.cut.induct (w := "and".toList) generalizing a b acc with
  | case1 => simp [Conds.cut] at h
  | case2 f c s hc =>
    rw [Conds.cut, if_pos hc] at h
    simp only [Option.some.injEq, Prod.mk.injEq] at h
    obtain ⟨rfl, rfl⟩ := h
    simp only [Conds.valueOr, if_pos hc]
  | case3 f c s hc ih =>
    rw [Conds.cut, if_neg hc] at h
    simp only [Option.map_eq_some_iff, Prod.mk.injEq, Prod.exists] at h
    obtain ⟨a', b', h1, rfl, rfl⟩ := h
    rw [Conds.valueOr, if_neg hc, ih _ _ _ h1, Conds.valueOr, if_neg hc]

theorem no_and_value (v : Test → Bool) (s : Conds) (acc : Bool) (h : s.cut "and".toList = none) :
    s.valueOr v acc = (acc || s.valueOr v false) := by
  induction s using Conds.cut.induct (w := "and".toList) generalizing acc with
  | case1 => simp [Conds.valueOr]
  | case2 f c s hc => rw [Conds.cut, if_pos hc] at h; cases h
  | case3 f c s hc ih =>
    rw [Conds.cut, if_neg hc, Option.map_eq_none_iff] at h
    rw [Conds.valueOr, if_neg hc, ih _ h, Conds.valueOr, if_neg hc, ih (false || f.valueOr v) h]
    simp [Bool.or_assoc]

theorem cut_or_value (v : Test → Bool) (s a b : Conds) (hn : s.cut "and".toList = none) (hcl : s.Clear) (h : s.cut "or".toList = some (a, b)) :
    s.valueOr v false = (a.valueOr v false || b.valueOr v false) := by
  cases s with
  | one f => simp [Conds.cut] at h
  | more f c s =>
    rw [Conds.Clear] at hcl
    rw [Conds.cut] at hn h
    by_cases hc : fold c = "and".toList
    · rw [if_pos hc] at hn; cases hn
    · rw [if_neg hc, Option.map_eq_none_iff] at hn
      have ho : fold c = "or".toList := by rcases hcl.2.1 with h | h <;> grind
      rw [if_pos ho] at h
      simp only [Option.some.injEq, Prod.mk.injEq] at h
      obtain ⟨rfl, rfl⟩ := h
      simp only [Conds.valueOr, if_neg hc]
      rw [no_and_value v s _ hn]

theorem cut_none (s : Conds) (hcl : s.Clear) (h1 : s.cut "and".toList = none) (h2 : s.cut "or".toList = none) : ∃ f, s = .one f := by
  cases s with
  | one f => exact ⟨f, rfl⟩
  | more f c s =>
    rw [Conds.Clear] at hcl
    rw [Conds.cut] at h1 h2
    rcases hcl.2.1 with h | h
    · rw [if_pos h] at h1; cases h1
    · rw [if_pos h] at h2; cases h2

/-! ### Parsing and evaluation -/

/-- What evaluation of a tree gives, with the uninitialised variable undefined, holding zero, or holding anything. -/
def EvalsTo (w : IfWorld) (ci : Bool) (e : IfExp) (v : Bool) : Prop :=
  (evalExp w ci none e = .ub ∨ evalExp w ci none e = .ok (some v)) ∧ evalExp w ci (some 0) e = .ok (some v)

theorem EvalsTo.node {w : IfWorld} {ci : Bool} {l r : IfExp} {a b : Bool} (isAnd : Bool) (hl : EvalsTo w ci l a) (hr : EvalsTo w ci r b) :
    EvalsTo w ci (.node isAnd l r) (if isAnd then a && b else a || b) := by
  obtain ⟨hl1, hl2⟩ := hl
  obtain ⟨hr1, hr2⟩ := hr
  constructor
  · rw [evalExp]
    rcases hl1 with h | h
    · rw [h]; left; rfl
    · rw [h]
      simp only
      cases isAnd <;> cases a <;> simp
      all_goals
        rcases hr1 with h' | h' <;> rw [h'] <;> simp
  · rw [evalExp, hl2, hr2]
    cases isAnd <;> cases a <;> cases b <;> simp

theorem parse_conds (w : IfWorld) (ci : Bool) (s : Conds) (hc : s.Clear) :
    ∃ e, parseExp s.words = .ok (.inl e) ∧ EvalsTo w ci e (s.valueOr (testValue w ci) false) := by
  induction hn : s.words.length using Nat.strongRecOn generalizing s with
  | ind n ih =>
    subst hn
    have hs := suppress_conds s hc
    have hsc := strip_clear s hc
    have hsl := strip_length s
    rw [← strip_valueOr]
    obtain ⟨t, ts, hw⟩ : ∃ t ts, s.strip.words = t :: ts := by
      cases h : s.strip.words with
      | nil => exact absurd h s.strip.words_ne
      | cons t ts => exact ⟨t, ts, rfl⟩
    have ha := ifCut_conds (tok := "AND".toList) (.inl rfl) s.strip hsc
    have ho := ifCut_conds (tok := "OR".toList) (.inr rfl) s.strip hsc
    rw [show fold "AND".toList = "and".toList by decide] at ha
    rw [show fold "OR".toList = "or".toList by decide] at ho
    have child : ∀ x : Conds, x.Clear → x.words.length < s.words.length →
        suppress x.words = .ok x.strip.words ∧ x.strip.words.length < s.words.length ∧
        ∃ e, parseExp x.strip.words = .ok (.inl e) ∧ EvalsTo w ci e (x.valueOr (testValue w ci) false) := by
      intro x hx hl
      have h1 := strip_length x
      refine ⟨suppress_conds x hx, by omega, ?_⟩
      have := ih x.strip.words.length (by omega) x.strip (strip_clear x hx) rfl
      rw [strip_valueOr] at this
      exact this
    rw [parseExp.eq_1, hs, hw]
    simp only
    rw [hw] at ha ho
    cases h1 : s.strip.cut "and".toList with
    | some ab =>
      obtain ⟨a, b⟩ := ab
      obtain ⟨f1, f2, f3, -⟩ := cut_facts _ _ _ _ h1
      obtain ⟨ca, cb⟩ := f3 hsc
      obtain ⟨sa, la, ea, pa, va⟩ := child a ca (by omega)
      obtain ⟨sb, lb, eb, pb, vb⟩ := child b cb (by omega)
      rw [h1] at ha
      rw [ha]
      simp only [Option.map_some]
      rw [if_neg b.words_ne, sa, sb]
      simp only
      rw [if_pos ⟨la, lb⟩, pa, pb]
      refine ⟨_, rfl, ?_⟩
      rw [cut_and_value _ _ _ _ _ h1]
      exact EvalsTo.node true va vb
    | none =>
      rw [h1] at ha
      rw [ha]
      simp only [Option.map_none]
      cases h2 : s.strip.cut "or".toList with
      | some ab =>
        obtain ⟨a, b⟩ := ab
        obtain ⟨f1, f2, f3, -⟩ := cut_facts _ _ _ _ h2
        obtain ⟨ca, cb⟩ := f3 hsc
        obtain ⟨sa, la, ea, pa, va⟩ := child a ca (by omega)
        obtain ⟨sb, lb, eb, pb, vb⟩ := child b cb (by omega)
        rw [h2] at ho
        rw [ho]
        simp only [Option.map_some]
        rw [if_neg b.words_ne, sa, sb]
        simp only
        rw [if_pos ⟨la, lb⟩, pa, pb]
        refine ⟨_, rfl, ?_⟩
        rw [cut_or_value _ _ _ _ h1 hsc h2]
        exact EvalsTo.node false va vb
      | none =>
        rw [h2] at ho
        rw [ho]
        refine ⟨_, rfl, ?_⟩
        obtain ⟨f, hf⟩ := cut_none _ hsc h1 h2
        rcases strip_cases s with ⟨neg, t', he⟩ | ⟨f', c', r', he⟩
        · rw [he] at hsc hw ⊢
          rw [Conds.Clear] at hsc
          rw [Conds.words] at hw
          rw [← hw, Conds.valueOr, Bool.false_or]
          have := execTest_form w ci neg t' hsc
          exact ⟨.inr (by rw [evalExp]; exact this), by rw [evalExp]; exact this⟩
        · rw [he] at hf; cases hf

/-! ### Values -/

mutual
theorem uniform_form (v : Test → Bool) (f : Form) (hc : f.Clear) (hu : f.Uniform) : f.valueOr v = f.value v := by
  cases f with
  | test neg t => rw [Form.valueOr, Form.value]
  | group s =>
    rw [Form.Clear] at hc
    rw [Form.Uniform] at hu
    rw [Form.valueOr, Form.value]
    rcases hu.1 with h | h
    · rw [(uniform_conds v s hc hu.2).1 h true]
      exact ((uniform_conds v s hc hu.2).2.2 h)
    · exact (uniform_conds v s hc hu.2).2.1 h
theorem uniform_conds (v : Test → Bool) (s : Conds) (hc : s.Clear) (hu : s.Uniform) :
    (s.all "and".toList → ∀ acc, s.value v acc = (acc && s.valueOr v false)) ∧
    (s.all "or".toList → s.valueOr v false = s.value v true) ∧
    (s.all "and".toList → s.valueOr v false = (true && s.valueOr v false)) := by
  refine ⟨?_, ?_, by simp⟩
  · cases s with
    | one f =>
      rw [Conds.Clear] at hc
      rw [Conds.Uniform] at hu
      intro _ acc
      rw [Conds.value, Conds.valueOr, uniform_form v f hc hu]; simp
    | more f c s =>
      rw [Conds.Clear] at hc
      rw [Conds.Uniform] at hu
      intro h acc
      rw [Conds.all] at h
      rw [Conds.value, Conds.valueOr, if_pos h.1, if_pos h.1, (uniform_conds v s hc.2.2 hu.2).1 h.2, uniform_form v f hc.1 hu.1]
      simp [Bool.and_assoc]
  · cases s with
    | one f =>
      rw [Conds.Clear] at hc
      rw [Conds.Uniform] at hu
      intro _
      rw [Conds.value, Conds.valueOr, uniform_form v f hc hu]; simp
    | more f c s =>
      rw [Conds.Clear] at hc
      rw [Conds.Uniform] at hu
      intro h
      rw [Conds.all] at h
      have hna : fold c ≠ "and".toList := by rw [h.1]; decide
      have hcut : s.cut "and".toList = none := by
        clear hc hu
        have h2 := h.2
        clear h hna
        induction s using Conds.cut.induct (w := "and".toList) with
        | case1 => rfl
        | case2 f c s hc => rw [Conds.all] at h2; rw [h2.1] at hc; exact absurd hc (by decide)
        | case3 f c s hc ih => rw [Conds.all] at h2; rw [Conds.cut, if_neg hc, ih h2.2]; rfl
      rw [Conds.value, Conds.valueOr, if_neg hna, if_neg hna, no_and_value v s _ hcut, (uniform_conds v s hc.2.2 hu.2).2.1 h.2,
        uniform_form v f hc.1 hu.1]
      simp
end

/-! ### Reading the words -/

/-- The level of brackets after a word. -/
def wordLevel (k : Int) (t : List Char) : Int := if t = ['['] then k + 1 else if t = [']'] then k - 1 else k

/-- The level stays positive up to the last word, where it does not. -/
def Opens : Int → List (List Char) → Prop
  | _, [] => False
  | k, [t] => wordLevel k t ≤ 0
  | k, t :: r => 0 < wordLevel k t ∧ Opens (wordLevel k t) r

theorem Opens_cons {k : Int} {t : List Char} {r : List (List Char)} (h : r ≠ []) :
    Opens k (t :: r) ↔ 0 < wordLevel k t ∧ Opens (wordLevel k t) r := by
  cases r with
  | nil => exact absurd rfl h
  | cons x r => rw [Opens]; exact h

mutual
theorem Opens_form (f : Form) (hc : f.Clear) (k : Int) (hk : 1 ≤ k) (tail : List (List Char)) (ht : tail ≠ []) :
    Opens k (f.words ++ tail) ↔ Opens k tail := by
  cases f with
  | test neg t =>
    have h := test_words_clear hc
    generalize (Form.test neg t).words = ws at h
    clear hc
    induction ws with
    | nil => rfl
    | cons x ws ih =>
      have hx := not_reserved (h x (by simp))
      have ih' := ih (fun y hy => h y (List.mem_cons_of_mem _ hy))
      rw [List.cons_append, Opens_cons (by simp [ht]), wordLevel, if_neg hx.1, if_neg hx.2.1]
      constructor
      · exact fun h => ih'.1 h.2
      · exact fun h => ⟨by omega, ih'.2 h⟩
  | group s =>
    rw [Form.Clear] at hc
    rw [Form.words, List.cons_append, Opens_cons (by simp), wordLevel, if_pos rfl, List.append_assoc,
      Opens_conds s hc (k + 1) (by omega) _ (by simp), List.singleton_append, Opens_cons ht, wordLevel, if_neg (by decide), if_pos rfl,
      show k + 1 - 1 = k by omega]
    constructor
    · exact fun h => h.2.2
    · exact fun h => ⟨by omega, by omega, h⟩
theorem Opens_conds (s : Conds) (hc : s.Clear) (k : Int) (hk : 1 ≤ k) (tail : List (List Char)) (ht : tail ≠ []) :
    Opens k (s.words ++ tail) ↔ Opens k tail := by
  cases s with
  | one f => rw [Conds.Clear] at hc; rw [Conds.words]; exact Opens_form f hc k hk tail ht
  | more f c s =>
    rw [Conds.Clear] at hc
    have hb := conn_not_bracket hc.2.1
    rw [Conds.words, List.append_assoc, Opens_form f hc.1 k hk _ (by simp), List.cons_append, Opens_cons (by simp [ht]), wordLevel,
      if_neg hb.1, if_neg hb.2, Opens_conds s hc.2.2 k hk tail ht]
    constructor
    · exact fun h => h.2
    · exact fun h => ⟨by omega, h⟩
end

theorem Opens_group (s : Conds) (hc : s.Clear) : Opens 0 (Form.group s).words := by
  rw [Form.words, Opens_cons (by simp), wordLevel, if_pos rfl, Opens_conds s hc _ (by omega) _ (by simp)]
  exact ⟨by omega, by rw [Opens]; decide⟩

theorem ifWords_prefix {q : Char → Bool} (hq : q '"' = true) (hqc : q '^' = true) (ex : List Char → Res (List Char))
    {line rest : List Char} {ws : List (List Char)} (h : ParamPrefix q line ws rest) (hex : ∀ a ∈ ws, ex (escape q a) = .ok a)
    (k : Int) (ho : Opens k ws) : ifWords ex k line = .ok (ws, some rest) := by
  induction h generalizing k with
  | @last w x a rest hw hx hs =>
    have h1 := nextParam_written hq hqc ex hw hx (tail := rest) hs
    rw [hex a (by simp)] at h1
    simp only [Res.ok_bind, Res.pure_eq] at h1
    rw [ifWords.eq_1, List.append_assoc, ← List.append_assoc, List.append_assoc, h1]
    simp only
    rw [Opens, wordLevel] at ho
    rw [if_pos ho]
  | @cons w x a b r as rest hw hx hb hp ih =>
    have h1 := nextParam_written hq hqc ex hw hx (tail := b :: r) (.inr ⟨b, r, rfl, hb⟩)
    rw [hex a (by simp)] at h1
    simp only [Res.ok_bind, Res.pure_eq] at h1
    have has : as ≠ [] := by generalize b :: r = z at hp; cases hp <;> simp
    rw [Opens_cons has] at ho
    rw [ifWords.eq_1, List.append_assoc, ← List.append_assoc, List.append_assoc, h1]
    simp only
    obtain ⟨ho1, ho2⟩ := ho
    have ih := ih (fun y hy => hex y (by simp [hy])) _ ho2
    rw [wordLevel] at ho1 ih
    rw [if_neg (by omega), if_pos (by have := List.length_pos_iff.2 (written_ne hx); simp; omega), ih]

theorem nextParam_prefix {q : Char → Bool} (hq : q '"' = true) (hqc : q '^' = true) (ex : List Char → Res (List Char))
    {line rest a : List Char} {ws : List (List Char)} (h : ParamPrefix q line (a :: ws) rest) (hex : ex (escape q a) = .ok a) :
    ∃ r, nextParam stdDelims ex line = .ok (some (a, r)) ∧ (ws = [] → r = rest) ∧ (ws ≠ [] → ParamPrefix q r ws rest) := by
  cases h with
  | @last w x _ rest hw hx hs =>
    have h1 := nextParam_written hq hqc ex hw hx (tail := rest) hs
    rw [hex] at h1
    simp only [Res.ok_bind, Res.pure_eq] at h1
    exact ⟨rest, by rw [List.append_assoc]; exact h1, fun _ => rfl, fun h => absurd rfl h⟩
  | @cons w x _ b r as rest hw hx hb hp =>
    have h1 := nextParam_written hq hqc ex hw hx (tail := b :: r) (.inr ⟨b, r, rfl, hb⟩)
    rw [hex] at h1
    simp only [Res.ok_bind, Res.pure_eq] at h1
    refine ⟨b :: r, by rw [List.append_assoc]; exact h1, ?_, fun _ => hp⟩
    rintro rfl
    generalize b :: r = z at hp
    cases hp

/-- The evaluation of a line that begins with a group. -/
theorem ifBrackets_group {q : Char → Bool} (hq : q '"' = true) (hqc : q '^' = true) (w : IfWorld) (ci : Bool)
    {line rest : List Char} {s : Conds} (hc : s.Clear) (h : ParamPrefix q line (Form.group s).words rest)
    (hex : ∀ a ∈ (Form.group s).words, w.ex (escape q a) = .ok a) :
    (ifBrackets w ci none line = .ub ∨ ifBrackets w ci none line = .ok (.value ((Form.group s).valueOr (testValue w ci)) rest)) ∧
      ifBrackets w ci (some 0) line = .ok (.value ((Form.group s).valueOr (testValue w ci)) rest) := by
  obtain ⟨e, he, hv1, hv2⟩ := parse_conds w ci (.one (.group s)) (by rw [Conds.Clear, Form.Clear]; exact hc)
  rw [Conds.words] at he
  rw [Conds.valueOr, Bool.false_or] at hv1 hv2
  have hw := ifWords_prefix hq hqc w.ex h hex 0 (Opens_group s hc)
  unfold ifBrackets
  rw [hw]
  simp only
  rw [he]
  simp only
  constructor
  · rcases hv1 with h | h <;> rw [h]
    · left; rfl
    · right; rfl
  · rw [hv2]

theorem ifCond_group {q : Char → Bool} (hq : q '"' = true) (hqc : q '^' = true) (w : IfWorld) (u : Option Int)
    {line rest : List Char} {s : Conds} (h : ParamPrefix q line (Form.group s).words rest)
    (hex : ∀ a ∈ (Form.group s).words, w.ex (escape q a) = .ok a) : ifCond w u line = ifBrackets w false u line := by
  obtain ⟨ws, hws⟩ : ∃ ws, (Form.group s).words = ['['] :: ws := by rw [Form.words]; exact ⟨_, rfl⟩
  rw [hws] at h hex
  obtain ⟨r, hr, -⟩ := nextParam_prefix hq hqc w.ex h (hex _ (by simp))
  unfold ifCond
  rw [hr]
  simp only
  rw [if_neg (by decide), ifNot, if_neg (by decide), ifKeyword, if_neg (by decide), if_neg (by decide), if_neg (by decide), ifCompare, hr]
  simp only
  rw [if_pos trivial]

theorem ifCond_group_i {q : Char → Bool} (hq : q '"' = true) (hqc : q '^' = true) (w : IfWorld) (u : Option Int)
    {line rest o : List Char} {s : Conds} (ho : fold o = "/i".toList) (h : ParamPrefix q line (o :: (Form.group s).words) rest)
    (hex : ∀ a ∈ o :: (Form.group s).words, w.ex (escape q a) = .ok a) :
    ∃ line', ParamPrefix q line' (Form.group s).words rest ∧ ifCond w u line = ifBrackets w true u line' := by
  obtain ⟨ws, hws⟩ : ∃ ws, (Form.group s).words = ['['] :: ws := by rw [Form.words]; exact ⟨_, rfl⟩
  rw [hws] at h hex ⊢
  obtain ⟨r, hr, -, hp⟩ := nextParam_prefix hq hqc w.ex h (hex _ (by simp))
  have hp := hp (by simp)
  obtain ⟨r', hr', -⟩ := nextParam_prefix hq hqc w.ex hp (hex _ (by simp))
  refine ⟨r, hp, ?_⟩
  have hlen : o.length = 2 := by
    have := congrArg List.length ho
    unfold fold at this
    rw [List.length_map] at this
    exact this
  unfold ifCond
  rw [hr]
  simp only
  rw [List.take_of_length_le (by omega), if_pos ((stricmp_zero _ _).2 (by rw [ho]; decide)), hr']
  simp only
  rw [ifNot, if_neg (by decide), ifKeyword, if_neg (by decide), if_neg (by decide), if_neg (by decide), ifCompare, hr']
  simp only
  rw [if_pos trivial]

end PBat
