import Verif.Lemmas.Shift
/-
C28: `SHIFT`.
-/
namespace PBat
open Spec

/-- A `SHIFT` command in the context it is executed in. -/
structure ShiftRun where
  ctx : Ctx
  line : List Char

/-- Executing `SHIFT` commands one after the other. -/
def runShifts : LocalBlock → List ShiftRun → Res (LocalBlock × Bool)
  | b, [] => .ok (b, false)
  | b, r :: rs => do
    let (b, e) ← shiftCmd r.ctx.ex b r.line
    let (b, e') ← runShifts b rs
    pure (b, e || e')

/-- The commands ask for these starts and displacements. -/
inductive Asks (q : Char → Bool) : List ShiftRun → List (Nat × Nat) → Prop
  | nil : Asks q [] []
  | cons {r rs i d ds} : ShiftLine q r.line i d → Asks q rs ds → Asks q (r :: rs) ((i, d) :: ds)

/-- The arguments after several displacements. -/
def shiftedAll : List (List Char) → List (Nat × Nat) → List (List Char)
  | xs, [] => xs
  | xs, (i, d) :: r => shiftedAll (shifted i d xs) r

theorem shiftCmd_holds {q : Char → Bool} (hq : q '"' = true) (hc : q '^' = true) (hp : q '%' = true) (he : q '!' = true)
    (c : Ctx) {b : LocalBlock} {xs : List (List Char)} (h : HoldsArgs b xs) {line : List Char} {i d : Nat}
    (hl : ShiftLine q line i d) (hid : i + d ≤ 10) :
    ∃ b', shiftCmd c.ex b line = .ok (b', false) ∧ HoldsArgs b' (shifted i d xs) ∧
      ∀ x, OtherVar x → x ≠ '+' → b' x = b x := by
  obtain ⟨name, rest, ws, os, rfl, hn, hpl, hw, hs⟩ := hl
  obtain ⟨b', e1, e2, e3⟩ := shiftArgs_holds c h hid
  refine ⟨b', ?_, e2, e3⟩
  unfold shiftCmd
  have : (name ++ rest).drop 5 = rest := by rw [← hn, List.drop_left]
  rw [this, shiftOpts_words c (kept_line hq hc hp he hpl) hw 0 1, hs]
  simp only [Res.ok_bind, e1, Res.pure_eq]

theorem runShifts_holds {q : Char → Bool} (hq : q '"' = true) (hc : q '^' = true) (hp : q '%' = true) (he : q '!' = true)
    {rs : List ShiftRun} {ds : List (Nat × Nat)} (ha : Asks q rs ds) (hds : ∀ d ∈ ds, d.1 + d.2 ≤ 10)
    {b : LocalBlock} {xs : List (List Char)} (h : HoldsArgs b xs) :
    ∃ b', runShifts b rs = .ok (b', false) ∧ HoldsArgs b' (shiftedAll xs ds) ∧
      ∀ x, OtherVar x → x ≠ '+' → b' x = b x := by
  induction ha generalizing b xs with
  | nil => exact ⟨b, rfl, h, fun _ _ _ => rfl⟩
  | @cons r rs i d ds hl _ ih =>
    obtain ⟨b1, e1, e2, e3⟩ := shiftCmd_holds hq hc hp he r.ctx h hl (hds (i, d) (by simp))
    obtain ⟨b2, f1, f2, f3⟩ := ih (fun x hx => hds x (by simp [hx])) e2
    refine ⟨b2, by simp [runShifts, e1, f1], f2, fun x h1 h2 => by rw [f3 x h1 h2, e3 x h1 h2]⟩

/-- After `CALL` with any number of arguments (written in any way on the line) and any sequence of `SHIFT` commands
with any documented options, executed under any expansion mode, environment and loop variables, `%0` to `%9` are the
first ten of the remaining arguments in order, `%*` is what it was at the call and no command reported an error.
Missing: arguments after the ninth that are empty or contain `^`, `%`, `!` or a newline (`C28_caret`, `C28_empty`,
`C28_expanded`), displacements reaching beyond `%9` (`C28_beyond`), the option `/7` (`C28_seven`). -/
theorem C28_call_partial {q : Char → Bool} (hq : q '"' = true) (hc : q '^' = true) (hp : q '%' = true)
    (he : q '!' = true) (c : Ctx) (zero line all : List Char) (as : List (List Char)) (h : ParamLine q line as)
    (hall : c.ex line = .ok all) (hpass : ∀ a ∈ as.drop 9, Passable a)
    (rs : List ShiftRun) (ds : List (Nat × Nat)) (ha : Asks q rs ds) (hds : ∀ d ∈ ds, d.1 + d.2 ≤ 10) :
    ∃ b b', callArgs c.ex zero line = .ok b ∧ runShifts b rs = .ok (b', false) ∧
      ArgsAre b (zero :: as) ∧ ArgsAre b' (shiftedAll (zero :: as) ds) ∧ b' '*' = some all := by
  obtain ⟨b, e1, e2, e3⟩ := callArgs_holds c (zero := zero) (kept_line hq hc hp he h) hall hpass
  obtain ⟨b', f1, f2, f3⟩ := runShifts_holds hq hc hp he ha hds e2
  refine ⟨b, b', e1, f1, e2.first, f2.first, ?_⟩
  have hstar : ∀ i < 10, '*' ≠ argName i := by decide
  rw [f3 '*' hstar (by decide), e3]

/-- The same for the arguments of the program: script given on the command line with any arguments. -/
theorem C28_start_partial {q : Char → Bool} (hq : q '"' = true) (hc : q '^' = true) (hp : q '%' = true)
    (he : q '!' = true) (zero : List Char) (as : List (List Char)) (hpass : ∀ a ∈ as.drop 9, Passable a)
    (rs : List ShiftRun) (ds : List (Nat × Nat)) (ha : Asks q rs ds) (hds : ∀ d ∈ ds, d.1 + d.2 ≤ 10) :
    ∃ b b', startArgs zero as = .ok b ∧ runShifts b rs = .ok (b', false) ∧
      ArgsAre b (zero :: as) ∧ ArgsAre b' (shiftedAll (zero :: as) ds) ∧ b' '*' = b '*' := by
  have key : ∃ b, startArgs zero as = .ok b ∧ HoldsArgs b (zero :: as) := by
    obtain ⟨t, ht⟩ : ∃ t, commandLine as = .ok t := by
      clear hpass
      induction as with
      | nil => exact ⟨[], rfl⟩
      | cons a as ih =>
        obtain ⟨t, ht⟩ := ih
        simp [commandLine, replaceIn_char, ht]
    have hl0 : localName '0' = true := by decide
    have set0 : ∀ (b : LocalBlock) (v : Option (List Char)) (x : Char),
        setLocalVar b '0' v x = if x = '0' then v else b x := by simp [setLocalVar, hl0]
    have h0 : ∀ n, n < 10 → (argName n = '0' ↔ n = 0) := by decide
    unfold startArgs
    rw [ht]
    simp only [Res.ok_bind]
    generalize hb0 : setLocalVar (setLocalVar (fun _ => none) '*' (some t)) '+' (some []) = b0
    have hplus : b0 '+' = some [] := by rw [← hb0, setPlus, if_pos rfl]
    cases as with
    | nil =>
      simp only
      obtain ⟨g1, g2, g3⟩ := emptyArgs_spec b0 1
      refine ⟨_, rfl, ?_, [], ?_, .nil (by simp)⟩
      · intro n hn
        show setLocalVar _ _ _ (argName n) = _
        rw [set0]
        by_cases hn0 : n = 0
        · rw [if_pos ((h0 n hn).2 hn0), hn0]; rfl
        · rw [if_neg (fun e => hn0 ((h0 n hn).1 e)), g1 n hn (by omega)]
          obtain ⟨m, rfl⟩ : ∃ m, n = m + 1 := ⟨n - 1, by omega⟩
          simp
      · rw [set0, if_neg (by decide), g3 _ otherVar_plus, hplus]
    | cons a as =>
      simp only
      obtain ⟨s1, s2, s3, s4, s5⟩ := setArgs_spec b0 1 (by omega) (a :: as)
      generalize hsa : setArgs b0 1 (a :: as) = sa at *
      obtain ⟨b1, i1, r1⟩ := sa
      simp only at s1 s2 s3 s4 s5
      obtain ⟨t', ht', hk⟩ := commandLine_kept ((a :: as).drop 9) hpass
      rw [s2]
      simp only [show 10 - 1 = 9 from rfl, ht', Res.ok_bind, Res.pure_eq]
      obtain ⟨g1, g2, g3⟩ := emptyArgs_spec (setLocalVar b1 '+' (some t')) i1
      refine ⟨_, rfl, ?_, t', ?_, hk⟩
      · intro n hn
        show setLocalVar _ _ _ (argName n) = _
        rw [set0]
        by_cases hn0 : n = 0
        · rw [if_pos ((h0 n hn).2 hn0), hn0]; rfl
        · rw [if_neg (fun e => hn0 ((h0 n hn).1 e))]
          obtain ⟨m, rfl⟩ : ∃ m, n = m + 1 := ⟨n - 1, by omega⟩
          rw [List.getD_cons_succ]
          by_cases hlt : m + 1 < i1
          · rw [g2 _ hn hlt, setPlus, if_neg (argName_ne_plus hn), s4 _ hn (by omega) (by omega)]
            simp
          · rw [g1 _ hn (by omega), List.getD_eq_getElem?_getD, List.getElem?_eq_none (by omega)]; rfl
      · rw [set0, if_neg (by decide), g3 _ otherVar_plus, setPlus, if_pos rfl]
  obtain ⟨b, e1, e2⟩ := key
  obtain ⟨b', f1, f2, f3⟩ := runShifts_holds hq hc hp he ha hds e2
  have hstar : ∀ i < 10, '*' ≠ argName i := by decide
  exact ⟨b, b', e1, f1, e2.first, f2.first, f3 '*' hstar (by decide)⟩

theorem shiftedAll_plain (xs : List (List Char)) (k n : Nat) :
    (shiftedAll xs (List.replicate k (0, 1))).getD n [] = xs.getD (n + k) [] := by
  induction k generalizing xs with
  | zero => rfl
  | succ k ih =>
    simp only [List.replicate_succ, shiftedAll]
    rw [ih, shifted_getD, if_neg (by omega)]
    congr 1

/-- Plain `SHIFT` after `SHIFT` enumerates the arguments of the `CALL` in `%1`, in order and beyond the ninth: after
`k` of them `%1` is argument number `k + 1`, empty once there are no more.  Same restriction on the arguments after
the ninth as `C28_call_partial`. -/
theorem C28_enumerates_partial {q : Char → Bool} (hq : q '"' = true) (hc : q '^' = true) (hp : q '%' = true)
    (he : q '!' = true) (c : Ctx) (zero line all : List Char) (as : List (List Char)) (h : ParamLine q line as)
    (hall : c.ex line = .ok all) (hpass : ∀ a ∈ as.drop 9, Passable a) (rs : List ShiftRun)
    (hrs : ∀ r ∈ rs, r.line = "SHIFT".toList ∨ r.line = "shift".toList) :
    ∃ b b', callArgs c.ex zero line = .ok b ∧ runShifts b rs = .ok (b', false) ∧
      b' '1' = some (as.getD rs.length []) := by
  have ha : Asks q rs (List.replicate rs.length (0, 1)) := by
    clear h hall hpass
    induction rs with
    | nil => exact .nil
    | cons r rs ih =>
      refine .cons ⟨r.line, [], [], [], by simp, ?_, .none (by simp), .nil, rfl⟩ (ih fun x hx => hrs x (by simp [hx]))
      rcases hrs r (by simp) with h | h <;> rw [h] <;> rfl
  obtain ⟨b, b', e1, e2, -, e3, -⟩ := C28_call_partial hq hc hp he c zero line all as h hall hpass rs _ ha (by
    intro d hd
    rw [(List.mem_replicate.1 hd).2]; decide)
  refine ⟨b, b', e1, e2, ?_⟩
  have := e3 1 (by decide)
  rw [shiftedAll_plain, Nat.add_comm 1 rs.length, List.getD_cons_succ] at this
  exact this

/-! ### What fails -/

/-- A context in which nothing is defined. -/
def emptyCtx : Ctx := ⟨false, fun _ => none, fun _ _ _ => [], fun _ => .ok none⟩

/-- The option `/7`, although documented, is refused: an error, and no argument moves. -/
theorem C28_seven (b : LocalBlock) : shiftCmd emptyCtx.ex b "SHIFT /7".toList = .ok (b, true) := by
  have : shiftOpts emptyCtx.ex 0 1 ("SHIFT /7".toList.drop 5) = .ok none := by decide +kernel
  simp only [shiftCmd, this, Res.ok_bind, Res.pure_eq]

/-- The values of `%8` and `%9` after `CALL` with the line and one `SHIFT` in the context. -/
def afterShift (c : Ctx) (call shift : String) : Res (Option (List Char) × Option (List Char)) := do
  let b ← callArgs c.ex ['f'] call.toList
  let (b, _) ← shiftCmd c.ex b shift.toList
  pure (b '8', b '9')

/-- A caret in the tenth argument disappears when the argument reaches `%9`. -/
theorem C28_caret :
    ParamLine (fun c => c == '"' || c == '^') "1 2 3 4 5 6 7 8 9 \"a^^b\"".toList
      ["1".toList, "2".toList, "3".toList, "4".toList, "5".toList, "6".toList, "7".toList, "8".toList, "9".toList,
        "a^b".toList] ∧
    afterShift emptyCtx "1 2 3 4 5 6 7 8 9 \"a^^b\"" "SHIFT" = .ok (some "9".toList, some "ab".toList) := by
  refine ⟨?_, by decide +kernel⟩
  have w : ∀ c : Char, ¬ Blank c → c ≠ '"' → c ≠ '^' → Written (fun c => c == '"' || c == '^') [c] [c] := by
    intro c h1 h2 h3
    refine .word (by simp) (by simpa using h1) (by simpa using Ne.symm h2) (by simp [h2, h3])
  have step : ∀ (c : Char) (rest : List Char) (as : List (List Char)), ¬ Blank c → c ≠ '"' → c ≠ '^' →
      ParamLine (fun c => c == '"' || c == '^') rest as →
      ParamLine (fun c => c == '"' || c == '^') (c :: ' ' :: rest) ([c] :: as) := by
    intro c rest as h1 h2 h3 h
    exact .cons (w := []) (by simp) (w c h1 h2 h3) (.inl rfl) h
  iterate 9 refine step _ _ _ (by decide) (by decide) (by decide) ?_
  exact .last (w := []) (by simp) (.quoted (a := "a^b".toList))

/-- An empty tenth argument is lost: `%9` becomes the eleventh argument. -/
theorem C28_empty :
    afterShift emptyCtx "1 2 3 4 5 6 7 8 9 \"\" x" "SHIFT" = .ok (some "9".toList, some "x".toList) := by
  decide +kernel

/-- Text of the tenth argument that looks like a variable is expanded when the argument reaches `%9`. -/
theorem C28_expanded :
    afterShift ⟨true, fun _ => none, fun _ _ _ => [], fun n => .ok (if n = ['v'] then some ['w'] else none)⟩
      "1 2 3 4 5 6 7 8 9 ^!v^!" "SHIFT" = .ok (some "9".toList, some "w".toList) := by
  decide +kernel

/-- A displacement reaching beyond `%9` drops too few arguments: from `%8` on and by five places, `%8` should become
the thirteenth argument `d`; it becomes the tenth one. -/
theorem C28_beyond :
    (shifted 8 5 ("f123456789abcdef".toList.map ([·]))).getD 8 [] = ['d'] ∧
    afterShift emptyCtx "1 2 3 4 5 6 7 8 9 a b c d e f" "SHIFT /s:8 /d:5" = .ok (some ['a'], some ['b']) := by
  decide +kernel

/-! ### The hypotheses are met -/

example : ∃ rs, Asks (fun c => c == '"' || c == '^' || c == '%' || c == '!') rs [(0, 1), (2, 3)] ∧ rs.length = 2 := by
  refine ⟨[⟨emptyCtx, "shift".toList⟩, ⟨emptyCtx, "SHIFT /2 /d:3".toList⟩], ?_, rfl⟩
  have hw : ∀ x : List Char, x ≠ [] → (∀ c ∈ x, ¬ Blank c) → '"' ∉ x → (∀ c ∈ x, c ≠ '^' ∧ c ≠ '%' ∧ c ≠ '!') →
      Written (fun c => c == '"' || c == '^' || c == '%' || c == '!') x x := by
    intro x h1 h2 h3 h4
    refine .word h1 h2 h3 fun c hc => ?_
    obtain ⟨a1, a2, a3⟩ := h4 c hc
    have a0 : c ≠ '"' := by rintro rfl; exact h3 hc
    simp [a0, a1, a2, a3]
  refine .cons ⟨"shift".toList, [], [], [], rfl, rfl, .none (by simp), .nil, rfl⟩ (.cons ?_ .nil)
  refine ⟨"SHIFT".toList, " /2 /d:3".toList, ["/2".toList, "/d:3".toList], [.start 2, .step 3], rfl, rfl, ?_,
    .cons (.plain (n := 2) (by decide) (by decide) (by decide)) (.cons (.stepColon (n := 3) (by decide) (by decide)) .nil),
    rfl⟩
  exact .cons (w := [' ']) (by decide) (hw "/2".toList (by decide) (by decide) (by decide) (by decide)) (.inl rfl)
    (.last (w := []) (by simp) (hw "/d:3".toList (by decide) (by decide) (by decide) (by decide)))

/-- Twelve arguments, some with blanks and quotes, two shifts. -/
example : Passable "a \"b\";".toList ∧
    afterShift emptyCtx "1 2 3 4 5 6 7 8 9 \"a ^\"b^\";\" l m" "SHIFT /d:2" =
      .ok (some "a \"b\";".toList, some "l".toList) := by decide +kernel

end PBat
