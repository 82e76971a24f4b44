import Verif.Lemmas.Eval
import Verif.Props.C22
/-
C31: arithmetic expressions of `SET /A`.
-/
namespace PBat
open Spec

variable {D σ : Type}

/-- `SET /A` on the text of any integer expression gives its value under the documented precedences, for all expressions of any size
and depth and with blanks anywhere, provided the operators outside parentheses (and those within each pair) do not mix `||`, `|` and
`^`, nor `&&` with `&`, `|` or `^`; the variables assigned inside the expression get their values, too.  Intermediate results are
supposed to be in the range of `int`.  Missing: mixtures of these operators, whose precedence is not the documented one
(`C31_bitwise_levels`), the operator `!` (`C31_not`), division by zero (`C31_division_by_zero`). -/
theorem C31_value_partial {L : FloatOps D} {V : VarOps σ D} {Rep : D → Int → Prop} (FL : FloatLaws L Rep) (VL : VarLaws L V)
    (t : List Char) (e : Ex D) (ht : ExText L t e) (s : σ) (st st' : List Char → Int) (v : Int) (ex : Bool)
    (h : intValue st e = some (v, ex, st')) (hs : HoldsInts V Rep s st) (old : Bool) :
    ∃ s', evaluate L V old s t = .ok (s', L.ofInt v, false) ∧ HoldsInts V Rep s' st' := by
  obtain ⟨s', h1, h2, -⟩ := evaluate_text FL VL ht h hs old
  exact ⟨s', h1, h2⟩

/-- `SET /A` carries out all assignments of its line in order, each seeing the results of those before it; `name op= expression`
stands for `name=name op (expression)`.  Missing: as above, and the operators `<<`, `>>` (`C31_shift_assign`), `&&`, `||`
(`C31_logical_assign`) before `=`. -/
theorem C31_command_partial {L : FloatOps D} {V : VarOps σ D} {Rep : D → Int → Prop} (FL : FloatLaws L Rep) (VL : VarLaws L V)
    (q : Char → Bool) (hq : ∀ c ∈ ['"', ',', '^'], q c = true) (ex : List Char → Res (List Char)) (hex : ∀ a, ex (escape q a) = .ok a)
    (line : List Char) (st st' : List Char → Int) (h : SetLine L q st line st') (s : σ) (hs : HoldsInts V Rep s st) (old : Bool) :
    ∃ s' fm, setA L V ex old s line = .ok (s', fm, true) ∧ HoldsInts V Rep s' st' :=
  setA_line FL VL (hq _ (by simp)) (hq _ (by simp)) (hq _ (by simp)) ex hex h hs old [] (by simp)

/-- Expressions with decimal numbers, constants or functions, made of `+ - * / %` and functions: all of the expression is computed on decimal
numbers, whatever its size and depth and whichever of its numbers are decimal, and the result is a decimal number.  The parts made of
integers only are supposed to have values as integers.  Missing: bitwise and logical operators, assignments; functions applied
to integer expressions (`C31_function`). -/
theorem C31_decimal_partial {L : FloatOps D} {V : VarOps σ D} (t : List Char) (e : Ex D) (ht : ExText L t e) (s : σ) (d : D)
    (hu : usesFloat e = true) (h : floatOf L (V.get s) e = some d) (hf : PartsFit L (V.get s) e) (old : Bool) :
    evaluate L V old s t = .ok (s, d, true) := by
  obtain ⟨ts, hsp, hl, hp⟩ := parse_text (V := V) ht
  obtain ⟨x, h1, h2, h3, -⟩ := tree_float hl s h hf
  have hp := hp s [] [] trivial (.inl rfl)
  rw [List.append_nil, h1] at hp
  unfold evaluate
  rw [lex_spelt hsp, hp]
  simp only [Res.ok_bind, parseToks, parseStep, haveStep, reduce, Res.pure_eq, asDouble, h2, hu, h3]
  rfl

/-- Expressions of integers made of `+ - * / %` have their values on 64 bits, whatever the library of decimal numbers; variables are rounded
towards 0. -/
theorem C31_wide_partial {L : FloatOps D} {V : VarOps σ D} (t : List Char) (e : Ex D) (ht : ExText L t e) (s : σ) (v : Int)
    (h : int64 L (V.get s) e = some v) (old : Bool) : evaluate L V old s t = .ok (s, L.ofInt v, false) := by
  obtain ⟨ts, hsp, hl, hp⟩ := parse_text (V := V) ht
  obtain ⟨hu, ⟨d, hd⟩, hf⟩ := int64_float h
  obtain ⟨x, h1, h2, -, h4⟩ := tree_float hl s hd hf
  have hp := hp s [] [] trivial (.inl rfl)
  rw [List.append_nil, h1] at hp
  have h5 := h4 hu
  rw [h] at h5
  injection h5 with h5
  unfold evaluate
  rw [lex_spelt hsp, hp]
  simp only [Res.ok_bind, parseToks, parseStep, haveStep, reduce, Res.pure_eq, asDouble, h2, hu, h5]
  rfl

/-- A parenthesis not closed, one not opened, a missing operand: the value is NAN, for every expression otherwise well written. -/
theorem C31_unbalanced {L : FloatOps D} {V : VarOps σ D} {Rep : D → Int → Prop} (FL : FloatLaws L Rep) (VL : VarLaws L V)
    (t : List Char) (e : Ex D) (ht : ExText L t e) (s : σ) (st st' : List Char → Int) (v : Int) (ex : Bool)
    (h : intValue st e = some (v, ex, st')) (hs : HoldsInts V Rep s st) (old : Bool) :
    (∃ s', evaluate L V old s ('(' :: t) = .ok (s', L.nan, old)) ∧
    (∃ s', evaluate L V old s (t ++ [')']) = .ok (s', L.nan, old)) ∧
    (∃ s', evaluate L V old s (t ++ ['^']) = .ok (s', L.nan, old)) := by
  obtain ⟨ts, hsp, hl, hp⟩ := parse_text (V := V) ht
  obtain ⟨s', x, htv, -⟩ := tree_value FL VL hl h hs
  refine ⟨⟨s', ?_⟩, ⟨s', ?_⟩, ⟨s', ?_⟩⟩
  · have hp := hp s [.par] [] trivial (.inl rfl)
    rw [List.append_nil, htv] at hp
    unfold evaluate
    rw [lex_spelt (.lpar hsp)]
    simp only [parseToks, parseStep, Res.ok_bind]
    rw [hp]
    rfl
  · have hp := hp s [] [.rpar] trivial (.inr (.inl rfl))
    rw [htv] at hp
    unfold evaluate
    rw [lex_spelt (spelt_append hsp (.rpar .nil) (c := ')') rfl (by decide) (by decide) (by decide)), hp]
    rfl
  · have hp := hp s [] [.op .xor] trivial (.inr (.inr ⟨.xor, rfl, by decide⟩))
    rw [htv] at hp
    unfold evaluate
    have hx : Spelt L ['^'] [.op .xor] := .op (o := .xor) (s := []) (by simp) (by simp) .nil
    rw [lex_spelt (spelt_append hsp hx (c := '^') rfl (by decide) (by decide) (by decide)), hp]
    rfl

/-- A parameter without `=` is refused: nothing is assigned, and the command fails. -/
theorem C31_refused (L : FloatOps D) (V : VarOps σ D) (q : Char → Bool) (hq : ∀ c ∈ ['"', ',', '^'], q c = true)
    (ex : List Char → Res (List Char)) (hex : ∀ a, ex (escape q a) = .ok a) (w a rest : List Char) (hw : ∀ c ∈ w, Blank c) (ha : a ≠ [])
    (hb : ∀ c, a.head? = some c → ¬ Blank c) (hr : rest = [] ∨ ∃ r, rest = ',' :: r) (he : '=' ∉ a) (s : σ) (old : Bool) :
    setA L V ex old s (w ++ (escape q a ++ rest)) = .ok (s, old, false) := by
  have hn := nextParam_escapedD (p := fun c => c == '"' || c == ',') (q := q) (d := ',') (by decide) (by decide) (by simp) (hq _ (by simp))
    (hq _ (by simp)) (hq _ (by simp)) ex hw ha hb hr
  rw [hex a] at hn
  simp only [Res.ok_bind, Res.pure_eq] at hn
  have hlen : (escape q a).length ≠ 0 := by
    cases a with
    | nil => exact absurd rfl ha
    | cons c a => unfold escape; split <;> simp
  have hev : setEval L V old s a = .ok (s, old, false) := by
    unfold setEval
    simp only
    rw [skipBlanks_self hb, if_pos he]
  rw [setA.eq_1, hn]
  simp only
  rw [if_pos (by simp; omega), hev]
  rfl

/-- The expansion of parameters is one that reads escaped texts. -/
example (delayed : Bool) (loops : LocalBlock) (mods : List Char → Char → List Char → List Char)
    (getv : List Char → Res (Option (List Char))) (a : List Char) :
    delayedExpand delayed loops mods getv (escape (fun c => "\",^%!".toList.contains c) a) = .ok a :=
  delayedExpand_escape delayed loops mods getv (by decide) (by decide) (by decide) a

/-! ### A sample of arithmetic -/

/-- Exact arithmetic. -/
def ratOps : FloatOps Rat where
  ofInt v := (v : Rat)
  add := (· + ·)
  sub := (· - ·)
  mul := (· * ·)
  div := (· / ·)
  fmod a b := ((a.num.tmod b.num : Int) : Rat)
  neg a := -a
  toInt q := if InInt (q.num.tdiv q.den) then some (q.num.tdiv q.den) else none
  nan := 0
  func _ x := x
  const _ := 0
  read _ := 0
  print q := intText q.num

theorem ratOps_laws : FloatLaws ratOps (fun q v => q = (v : Rat)) where
  ofInt _ _ := rfl
  add a b x y ha hb _ _ _ := by subst ha hb; exact (Rat.intCast_add x y).symm
  sub a b x y ha hb _ _ _ := by subst ha hb; exact (Rat.intCast_sub x y).symm
  mul a b x y ha hb _ _ _ := by subst ha hb; exact (Rat.intCast_mul x y).symm
  div a b x y ha hb _ _ h0 hd := by
    subst ha hb
    obtain ⟨k, rfl⟩ := hd
    show ((y * k : Int) : Rat) / (y : Rat) = (((y * k).tdiv y : Int) : Rat)
    rw [Int.mul_tdiv_cancel_left k h0, Rat.intCast_mul, Rat.mul_comm, Rat.div_def, Rat.mul_assoc, Rat.mul_inv_cancel, Rat.mul_one]
    exact_mod_cast h0
  fmod a b x y ha hb _ _ _ := by subst ha hb; rfl
  neg a x ha _ := by subst ha; exact (Rat.intCast_neg x).symm
  toInt a x ha hx := by
    subst ha
    show (if InInt ((x : Rat).num.tdiv (x : Rat).den) then _ else _) = _
    simp [hx]
  print a v ha _ _ := by subst ha; rfl

/-- Variables holding numbers. -/
def ratVars : VarOps (List Char → Rat) Rat where
  get s n := s (fold n)
  set s n d := fun m => if m = key n then d else s m
  put s n t := fun m => if m = key n then (((strtol0 t).1 : Int) : Rat) else s m

theorem ratVars_laws : VarLaws ratOps ratVars where
  set _ _ _ _ _ := rfl
  put s n v m hv := by
    have := (C22_texts v hv.1 hv.2).1
    have h2 := strtol0_number this [] (by intro c hc; simp at hc) (by have := hv.1; omega) (by have := hv.2; omega)
    rw [List.append_nil] at h2
    show (if fold m = key n then (((strtol0 (intText v)).1 : Int) : Rat) else _) = _
    rw [h2]
    rfl

/-- All variables are zero. -/
theorem ratVars_start : HoldsInts ratVars (fun q v => q = ((v : Int) : Rat)) (fun _ => 0) (fun _ => 0) := fun _ => rfl

/-- `1 + 2*(x=3) - 010`. -/
example : ExText ratOps "1 + 2*(x=3) - 010".toList
    (.bin .sub (.bin .add (.num ⟨false, 1, 1⟩) (.bin .mul (.num ⟨false, 2, 2⟩) (.asg "x".toList (.num ⟨false, 3, 3⟩)))) (.num ⟨false, 8, 8⟩)) := by
  refine ⟨fun o => o ∈ [BOp.sub, .add, .mul],
    [.num ⟨false, 1, 1⟩, .op .add, .num ⟨false, 2, 2⟩, .op .mul, .lpar, .var "x".toList, .asg, .num ⟨false, 3, 3⟩, .rpar, .op .sub,
      .num ⟨false, 8, 8⟩], by simp [Clear], ?_, ?_⟩
  · refine .word (w := ['1']) (.int (n := 1) (.dec (c := '1') (ds := []) (by decide) (by simp)) (by decide) (by decide)) (by decide) ?_
    refine .blank (.inl rfl) (.op (o := .add) (by simp) (by simp) (.blank (.inl rfl) ?_))
    refine .word (w := ['2']) (.int (n := 2) (.dec (c := '2') (ds := []) (by decide) (by simp)) (by decide) (by decide)) (by decide) ?_
    refine .op (o := .mul) (by simp) (by simp) (.lpar ?_)
    refine .word (w := ['x']) (.name (by decide) (by decide) ⟨'x', by decide, by decide⟩ (by decide) (by decide) (by decide)) (by decide) ?_
    refine .asg ?_
    refine .word (w := ['3']) (.int (n := 3) (.dec (c := '3') (ds := []) (by decide) (by simp)) (by decide) (by decide)) (by decide) ?_
    refine .rpar (.blank (.inl rfl) (.op (o := .sub) (by simp) (by simp) (.blank (.inl rfl) ?_)))
    exact .word (w := "010".toList) (s := []) (.int (n := 8) (.oct (ds := "10".toList) (by decide)) (by decide) (by decide)) (by simp) .nil
  · exact .bin (P := docPrec) (a := [.num ⟨false, 1, 1⟩, .op .add, .num ⟨false, 2, 2⟩, .op .mul, .lpar, .var "x".toList, .asg,
        .num ⟨false, 3, 3⟩, .rpar]) .sub (by decide) (by simp)
      (.bin (a := [.num ⟨false, 1, 1⟩]) .add (by decide) (by simp) (.num _)
        (.bin (a := [.num ⟨false, 2, 2⟩]) .mul (by decide) (by simp) (.num _)
          (.par (U' := fun _ => False) (t := [.var "x".toList, .asg, .num ⟨false, 3, 3⟩]) (by simp [Clear])
            (.asg (m := 8) _ (by intro o; cases o <;> decide) (.num _))))) (.num _)

/-- `1/2 + .5`: computed on decimal numbers. -/
example (s : List Char → Rat) (old : Bool) : evaluate ratOps ratVars old s "1/2 + .5e-1".toList = .ok (s, (1 : Rat) / 2 + ratOps.read ".5e-1".toList, true) := by
  refine C31_decimal_partial (e := .bin .add (.bin .div (.num ⟨false, 1, 1⟩) (.num ⟨false, 2, 2⟩)) (.num ⟨true, 0, ratOps.read ".5e-1".toList⟩)) _
    ⟨fun o => o ∈ [BOp.div, .add], [.num ⟨false, 1, 1⟩, .op .div, .num ⟨false, 2, 2⟩, .op .add, .num ⟨true, 0, ratOps.read ".5e-1".toList⟩],
      by simp [Clear], ?_, ?_⟩ s _ rfl rfl ⟨⟨trivial, trivial, .inr (.inr (by simp [int64, fits64]))⟩, trivial, .inr (.inl rfl)⟩ old
  · refine .word (w := ['1']) (.int (n := 1) (.dec (c := '1') (ds := []) (by decide) (by simp)) (by decide) (by decide)) (by decide) ?_
    refine .op (o := .div) (by simp) (by simp) ?_
    refine .word (w := ['2']) (.int (n := 2) (.dec (c := '2') (ds := []) (by decide) (by simp)) (by decide) (by decide)) (by decide) ?_
    refine .blank (.inl rfl) (.op (o := .add) (by simp) (by simp) (.blank (.inl rfl) ?_))
    exact .dec (w := ".5e-1".toList) (s := []) (.sexp (a := []) (b := ['5']) (e := 'e') (g := '-') (ds := ['1']) (by decide) (by decide) (by decide)
      (by decide) (by decide) (by decide)) (by simp) .nil
  · exact .bin (P := docPrec) (a := [.num ⟨false, 1, 1⟩, .op .div, .num ⟨false, 2, 2⟩]) .add (by decide) (by simp)
      (.bin (a := [.num ⟨false, 1, 1⟩]) .div (by decide) (by simp) (.num _) (.num _)) (.num _)

/-- The value of `1 + 2*(x=3) - 010` is -1, and `x` becomes 3. -/
example : ∃ st', intValue (D := Rat) (fun _ => 0) (.bin .sub (.bin .add (.num ⟨false, 1, 1⟩)
      (.bin .mul (.num ⟨false, 2, 2⟩) (.asg "x".toList (.num ⟨false, 3, 3⟩)))) (.num ⟨false, 8, 8⟩)) = some (-1, true, st') ∧
    st' "X".toList = 3 ∧ st' "y".toList = 0 := by
  refine ⟨assignInt (fun _ => 0) "x".toList 3, ?_, by decide, by decide⟩
  rfl

/-- `a=5,a-=7`. -/
example : SetLine ratOps (fun c => "\",^%!".toList.contains c) (fun _ => 0) "a=5,a-=7".toList
    (assignInt (assignInt (fun _ => 0) "a".toList 5) "a".toList (-2)) := by
  refine .cons (w := []) (a := "a=5".toList) (rest := ",a-=7".toList) (by simp)
    (.plain (n := "a".toList) (t := "5".toList) (e := .num ⟨false, 5, 5⟩) (v := 5) (ex := true) (st' := fun _ => 0) (by decide) (by decide) (by decide)
      ⟨fun _ => False, [.num ⟨false, 5, 5⟩], by simp [Clear], .word (w := ['5']) (s := [])
        (.int (n := 5) (.dec (c := '5') (ds := []) (by decide) (by simp)) (by decide) (by decide)) (by simp) .nil, .num _⟩ rfl)
    (.inr ⟨_, rfl⟩) ?_
  refine .cons (w := [',']) (a := "a-=7".toList) (rest := []) (by simp [Blank])
    (.comp (n := "a".toList) (o := .sub) (t := "7".toList) (e := .num ⟨false, 7, 7⟩) (v := 7) (ex := true) (w := -2)
      (st' := assignInt (fun _ => 0) "a".toList 5) (by decide) (by decide) (by decide) (by decide)
      ⟨fun _ => False, [.num ⟨false, 7, 7⟩], by simp [Clear], .word (w := ['7']) (s := [])
        (.int (n := 7) (.dec (c := '7') (ds := []) (by decide) (by simp)) (by decide) (by decide)) (by simp) .nil, .num _⟩ rfl
      (by decide) (by decide) (by decide) (by decide))
    (.inl rfl) (.done (w := []) (by simp))

/-! ### Where the code differs -/

theorem wordDigit (L : FloatOps D) : ∀ c ∈ "123456789".toList, Word L [c] (.num { isD := false, i := (valueIn 10 [c] : Nat), d := L.ofInt (valueIn 10 [c] : Nat) }) := by
  intro c hc
  refine .int (.dec (ds := []) hc (by simp)) ?_ ?_
  · revert c; decide
  · revert c; decide

/-- `|`, `||` and `^` have the same level, and so have `&` and `&&`: `1|1^1` gives 0 and not 1, `4&&5&4` gives 0 and not 1,
`2||1|2` gives 3 and not 1, whatever the library. -/
theorem C31_bitwise_levels {L : FloatOps D} (V : VarOps σ D) {Rep : D → Int → Prop} (FL : FloatLaws L Rep) (old : Bool) (s : σ) :
    (evaluate L V old s "1|1^1".toList = .ok (s, L.ofInt 0, false) ∧
      intValue (D := D) (fun _ => 0) (.bin .bor (.num ⟨false, 1, L.ofInt 1⟩) (.bin .xor (.num ⟨false, 1, L.ofInt 1⟩) (.num ⟨false, 1, L.ofInt 1⟩))) =
        some (1, true, fun _ => 0)) ∧
    (evaluate L V old s "4&&5&4".toList = .ok (s, L.ofInt 0, false) ∧
      intValue (D := D) (fun _ => 0) (.bin .land (.num ⟨false, 4, L.ofInt 4⟩) (.bin .band (.num ⟨false, 5, L.ofInt 5⟩) (.num ⟨false, 4, L.ofInt 4⟩))) =
        some (1, true, fun _ => 0)) ∧
    (evaluate L V old s "2||1|2".toList = .ok (s, L.ofInt 3, false) ∧
      intValue (D := D) (fun _ => 0) (.bin .lor (.num ⟨false, 2, L.ofInt 2⟩) (.bin .bor (.num ⟨false, 1, L.ofInt 1⟩) (.num ⟨false, 2, L.ofInt 2⟩))) =
        some (1, true, fun _ => 0)) := by
  have hi : ∀ v, InInt v → L.toInt (L.ofInt v) = some v := fun v hv => FL.toInt _ _ (FL.ofInt v hv) hv
  have h0 := hi 0 (by decide)
  have h1 := hi 1 (by decide)
  have h2 := hi 2 (by decide)
  have h3 := hi 3 (by decide)
  have h4 := hi 4 (by decide)
  have h5 := hi 5 (by decide)
  have w1 := wordDigit L '1' (by decide)
  have w2 := wordDigit L '2' (by decide)
  have w4 := wordDigit L '4' (by decide)
  have w5 := wordDigit L '5' (by decide)
  have e1 : opMeaning .xor 1 1 = some 0 := by decide +kernel
  have e2 : opMeaning .bor 1 0 = some 1 := by decide +kernel
  have e3 : opMeaning .band 5 4 = some 4 := by decide +kernel
  have e4 : opMeaning .land 4 4 = some 1 := by decide +kernel
  have e5 : opMeaning .bor 1 2 = some 3 := by decide +kernel
  have e6 : opMeaning .lor 2 3 = some 1 := by decide +kernel
  refine ⟨⟨?_, by simp [intValue, InInt, BOp.bitwise, e1, e2]⟩, ⟨?_, by simp [intValue, InInt, BOp.bitwise, e3, e4]⟩,
    ⟨?_, by simp [intValue, InInt, BOp.bitwise, e5, e6]⟩⟩
  · have hl : Spelt L "1|1^1".toList _ := .word w1 (by decide) (.op (o := .bor) (by simp) (by decide) (.word w1 (by decide)
      (.op (o := .xor) (by simp) (by simp) (.word (s := []) w1 (by simp) .nil))))
    unfold evaluate
    rw [lex_spelt hl]
    simp only [show valueIn 10 ['1'] = 1 from by decide]
    simp [parseToks, parseStep, haveStep, reduce, codePrec, binAct, intOp, intOfFloat, BOp.bitwise, h0, h1, Res.ofOption, asDouble, Res.ok_bind, Res.pure_eq]
  · have hl : Spelt L "4&&5&4".toList _ := .word w4 (by decide) (.op (o := .land) (by simp) (by simp) (.word w5 (by decide)
      (.op (o := .band) (by decide) (by simp) (.word (s := []) w4 (by simp) .nil))))
    unfold evaluate
    rw [lex_spelt hl]
    simp only [show valueIn 10 ['4'] = 4 from by decide, show valueIn 10 ['5'] = 5 from by decide]
    simp [parseToks, parseStep, haveStep, reduce, codePrec, binAct, intOp, intOfFloat, BOp.bitwise, h0, h1, h4, h5, Res.ofOption, asDouble, Res.ok_bind, Res.pure_eq]
  · have hl : Spelt L "2||1|2".toList _ := .word w2 (by decide) (.op (o := .lor) (by simp) (by simp) (.word w1 (by decide)
      (.op (o := .bor) (by simp) (by decide) (.word (s := []) w2 (by simp) .nil))))
    unfold evaluate
    rw [lex_spelt hl]
    simp only [show valueIn 10 ['1'] = 1 from by decide, show valueIn 10 ['2'] = 2 from by decide]
    simp [parseToks, parseStep, haveStep, reduce, codePrec, binAct, intOp, intOfFloat, BOp.bitwise, h0, h1, h2, h3, Res.ofOption, asDouble, Res.ok_bind, Res.pure_eq]

/-- `!` is no operator: `!x` is the value of a variable named `!x`, for every name. -/
theorem C31_not {L : FloatOps D} (V : VarOps σ D) (old : Bool) (s : σ) (x : List Char) (hx : ∀ c ∈ x, c ∉ wordEnd ∧ c ≠ '\n' ∧ c ≠ '.') :
    evaluate L V old s ('!' :: x) = (varAct L (V.get s ('!' :: x)) >>= fun r => .ok (s, L.ofInt r.i, false)) := by
  have hl : Spelt L (('!' :: x) ++ []) [.var ('!' :: x)] := .word (.name (by simp) (by
      intro c hc
      rcases List.mem_cons.1 hc with rfl | hc
      · decide
      · exact hx c hc) ⟨'!', by simp, by decide⟩ (by simp) (by simp [evalConstants]) (by simp [evalFunctions])) (by simp) .nil
  rw [List.append_nil] at hl
  unfold evaluate
  rw [lex_spelt hl]
  cases h : L.toInt (V.get s ('!' :: x)) <;>
    simp [parseToks, parseStep, haveStep, reduce, varAct, h, Res.ofOption, Res.ok_bind, Res.ub_bind, asDouble]

/-- A division by zero is undefined behaviour, while the documentation announces `inf` or `nan`. -/
theorem C31_division_by_zero {L : FloatOps D} (V : VarOps σ D) (old : Bool) (s : σ) :
    evaluate L V old s "1/0".toList = .ub ∧ evaluate L V old s "1%0".toList = .ub := by
  have w1 := wordDigit L '1' (by decide)
  have w0 : Word L ['0'] _ := .int (.oct (ds := []) (by simp)) (by decide) (by decide)
  constructor
  · have hl : Spelt L "1/0".toList _ := .word w1 (by decide) (.op (o := .div) (by simp) (by simp) (.word (s := []) w0 (by simp) .nil))
    unfold evaluate
    rw [lex_spelt hl]
    simp [parseToks, parseStep, haveStep, reduce, binAct, intOp, valueIn, Res.ofOption, Res.ok_bind, Res.ub_bind]
  · have hl : Spelt L "1%0".toList _ := .word w1 (by decide) (.op (o := .mod) (by simp) (by simp) (.word (s := []) w0 (by simp) .nil))
    unfold evaluate
    rw [lex_spelt hl]
    simp [parseToks, parseStep, haveStep, reduce, binAct, intOp, valueIn, Res.ofOption, Res.ok_bind, Res.ub_bind]

/-- `x<<=1` assigns a variable named `x<<` (and likewise `>>=`), for every name. -/
theorem C31_shift_assign {L : FloatOps D} (V : VarOps σ D) {Rep : D → Int → Prop} (FL : FloatLaws L Rep) (old : Bool) (s : σ) (x : List Char)
    (hx : '=' ∉ x) (hb : ∀ c, x.head? = some c → ¬ Blank c) :
    setEval L V old s (x ++ "<<=1".toList) = .ok (V.put s (x ++ "<<".toList) "1".toList, false, true) ∧
    setEval L V old s (x ++ ">>=1".toList) = .ok (V.put s (x ++ ">>".toList) "1".toList, false, true) := by
  have w1 := wordDigit L '1' (by decide)
  have he : evaluate L V old s "1".toList = .ok (s, L.ofInt 1, false) := by
    have hl : Spelt L "1".toList _ := .word (s := []) w1 (by simp) .nil
    unfold evaluate
    rw [lex_spelt hl]
    rfl
  have hp : L.print (L.ofInt 1) = "1".toList :=
    (show "1".toList = intText 1 by decide +kernel) ▸ FL.print _ 1 (FL.ofInt 1 (by decide)) (by decide) (.inl rfl)
  have hhd : ∀ y : List Char, (∀ c, y.head? = some c → ¬ Blank c) → ∀ c, (x ++ y).head? = some c → ¬ Blank c := by
    intro y hy c hc
    cases x with
    | nil => exact hy c hc
    | cons a x => exact hb c hc
  constructor
  · rw [show x ++ "<<=1".toList = (x ++ "<<".toList) ++ '=' :: "1".toList by simp,
      setEval_split L V old s (by simp; exact hx) (by rw [List.append_assoc]; exact hhd _ (by decide)), he]
    simp only [Res.ok_bind]
    rw [show assignOp (x ++ "<<".toList) = none by simp [assignOp]]
    simp only [hp]
  · rw [show x ++ ">>=1".toList = (x ++ ">>".toList) ++ '=' :: "1".toList by simp,
      setEval_split L V old s (by simp; exact hx) (by rw [List.append_assoc]; exact hhd _ (by decide)), he]
    simp only [Res.ok_bind]
    rw [show assignOp (x ++ ">>".toList) = none by simp [assignOp]]
    simp only [hp]

/-- `x||=0` looks at a variable named `x|` and not at `x`: it sets `x` to 0 even if `x` is 1. -/
theorem C31_logical_assign : ∃ s : List Char → Rat, ratVars.get s "x".toList = 1 ∧
    ∃ s', setEval ratOps ratVars false s "x||=0".toList = .ok (s', false, true) ∧ ratVars.get s' "x".toList = 0 := by
  refine ⟨fun m => if m = "x".toList then 1 else 0, by decide, ?_⟩
  have w0 : Word ratOps ['0'] _ := .int (.oct (ds := []) (by simp)) (by decide) (by decide)
  have hl : Spelt ratOps "0".toList _ := .word (s := []) w0 (by simp) .nil
  have he : ∀ s : List Char → Rat, evaluate ratOps ratVars false s "0".toList = .ok (s, ((0 : Int) : Rat), false) := by
    intro s
    unfold evaluate
    rw [lex_spelt hl]
    rfl
  rw [show "x||=0".toList = "x||".toList ++ '=' :: "0".toList from rfl, setEval_split _ _ _ _ (by decide) (by decide), he]
  refine ⟨_, rfl, ?_⟩
  decide +kernel

/-- The argument of a function does not become decimal: `sqrt(1/2)` is the square root of 0, for every function. -/
theorem C31_function {L : FloatOps D} (V : VarOps σ D) (old : Bool) (s : σ) (f : List Char) (hf : f ∈ evalFunctions) :
    evaluate L V old s (f ++ "(1/2)".toList) = .ok (s, L.func f (L.ofInt 0), true) := by
  have hl : Spelt L (f ++ "(1/2)".toList) _ := .word (.func hf) (by decide) (.lpar (.word (w := ['1']) (wordDigit L '1' (by decide)) (by decide)
    (.op (o := .div) (by simp) (by simp) (.word (w := ['2']) (wordDigit L '2' (by decide)) (by decide) (.rpar .nil)))))
  unfold evaluate
  rw [lex_spelt hl]
  simp [parseToks, parseStep, haveStep, reduce, binAct, intOp, valueIn, Res.ofOption, Res.ok_bind, callAct, asDouble, BOp.bitwise]
  rfl

/-- After a syntax error the variable is set all the same: to NAN. -/
theorem C31_syntax_error {L : FloatOps D} (V : VarOps σ D) (old : Bool) (s : σ) :
    setEval L V old s "x=1 2".toList = .ok (V.put s "x".toList (L.print L.nan), old, true) := by
  have w1 := wordDigit L '1' (by decide)
  have w2 := wordDigit L '2' (by decide)
  have he : evaluate L V old s "1 2".toList = .ok (s, L.nan, old) := by
    have hl : Spelt L "1 2".toList _ := .word w1 (by decide) (.blank (.inl rfl) (.word (s := []) w2 (by simp) .nil))
    unfold evaluate
    rw [lex_spelt hl]
    rfl
  rw [show "x=1 2".toList = "x".toList ++ '=' :: "1 2".toList from rfl, setEval_split _ _ _ _ (by decide) (by decide), he]
  rfl

end PBat
