import Verif.Lemmas.IfRun
import Verif.Props.C49
import Verif.Lemmas.ForLine
/-
C114: IF runs the commands written for its condition.
-/
namespace PBat
open Spec

/-- The condition holds: the lines run are those written for it; they run in the place of IF in its line, or without the rest of the line if
there is an ELSE (which the rest belongs to).  Partial: the lines are those of `C112_lines_partial`. -/
theorem C114_yes_partial {strict : Bool} {s : List Char} {yes : List (List Char)} {no : Option (List (List Char))} (h : IfText strict s yes no)
    (hat : NoAts yes) :
    ∃ c ls, ifYes s = .ok (if no.isSome then .alone c else .line c) ∧ cmdBlock c = .ok (some ls) ∧ ls.map unindent = branchLines yes := by
  cases h with
  | one hb =>
    obtain ⟨c, e, h1, h2, h3⟩ := branch_body hb
    obtain ⟨ls, h4, h5⟩ := wrap_lines h3 hat
    refine ⟨wrapBlock c, ls, ?_, h4, h5⟩
    simp [ifYes, h1, h2]
  | @both w b v e t _ no hw hb hv he ht hn =>
    obtain ⟨ls, h4, h5⟩ := wrap_lines hb hat
    refine ⟨wrapBlock b, ls, ?_, h4, h5⟩
    have hm : ¬ Blank '(' := by unfold Blank; decide
    have hx := nextBlock_inside (w := []) (by simp) (rows_body hb) (v ++ (e ++ t))
    rw [List.nil_append] at hx
    have hne : e ++ t ≠ [] := by intro h; have := lower_length he; simp_all
    unfold ifYes
    rw [skipBlanks_append hw, skipBlanks_stop hm]
    simp [ifBody, hx, ifBehind_blanks hv, skipBlanks_none (else_head he t), hne]

/-- The condition does not hold and there is no ELSE: nothing runs. -/
theorem C114_nothing {strict : Bool} {s : List Char} {yes : List (List Char)} (h : IfText strict s yes none) : ifNo s = .ok .nothing := by
  cases h with
  | one hb =>
    cases hb with
    | @block w b v _ hw hb hv =>
      have hm : ¬ Blank '(' := by unfold Blank; decide
      have hx := nextBlock_inside (w := []) (by simp) (rows_body hb) v
      rw [List.nil_append] at hx
      have hv0 := ifBehind_blanks hv []
      rw [List.append_nil] at hv0
      unfold ifNo
      rw [skipBlanks_append hw, skipBlanks_stop hm]
      simp [hx, hv0, show skipBlanks [] = [] from rfl, show elseWord [] = false from rfl]
    | @command w g l hw hl hh =>
      have hp : l.head? ≠ some '(' := fun e => (hh _ e).2 rfl
      unfold ifNo
      rw [skipBlanks_append hw, skipBlanks_none fun c hc => (hh c hc).1, if_neg hp]

/-- The condition does not hold: the lines run are those written behind ELSE, in the place of IF in its line.  Partial: as above. -/
theorem C114_else_partial {strict : Bool} {s : List Char} {yes no : List (List Char)} (h : IfText strict s yes (some no)) (hat : NoAts no) :
    ∃ c ls, ifNo s = .ok (.line c) ∧ cmdBlock c = .ok (some ls) ∧ ls.map unindent = branchLines no := by
  cases h with
  | @both w b v e t _ no hw hb hv he ht hn =>
    obtain ⟨c, x, h1, h2, h3⟩ := branch_body hn
    obtain ⟨ls, h4, h5⟩ := wrap_lines h3 hat
    refine ⟨wrapBlock c, ls, ?_, h4, h5⟩
    have hm : ¬ Blank '(' := by unfold Blank; decide
    have hx := nextBlock_inside (w := []) (by simp) (rows_body hb) (v ++ (e ++ t))
    rw [List.nil_append] at hx
    have hel : elseWord (e ++ t) = true := (elseWord_iff _).2 ⟨e, t, rfl, he, ht⟩
    have hd : (e ++ t).drop 4 = t := by rw [show 4 = e.length from (lower_length he).symm]; simp
    unfold ifNo
    rw [skipBlanks_append hw, skipBlanks_stop hm]
    simp [hx, ifBehind_blanks hv, skipBlanks_none (else_head he t), hel, hd, h1, h2]

/-- The whole command for the comparison with `==`: the texts are compared, with /i and NOT, and the lines written for the outcome run.
Partial: as above, and the restrictions of `C49_same` on the texts compared. -/
theorem C114_same_partial {strict : Bool} {q : Char → Bool} (hq : q '"' = true) (hqc : q '^' = true) (w : IfWorld) (u : Option Int)
    {os : List (List Char)} {ci neg : Bool} (ho : Options os ci neg) {l r : List Char} (hl : l ≠ []) (hle : '=' ∉ l) (hlq : l.getLast? ≠ some '"')
    (ha : PlainOperand (l ++ '=' :: '=' :: r)) {line rest : List Char} (h : ParamPrefix q line (os ++ [l ++ '=' :: '=' :: r]) rest)
    (hex : ∀ x ∈ os ++ [l ++ '=' :: '=' :: r], w.ex (escape q x) = .ok x) {yes no : List (List Char)} (hi : IfText strict rest yes (some no))
    (hy : NoAts yes) (hn : NoAts no) :
    ∃ c ls, cmdIf w u line = .ok (some (if cmpHolds w.strtod "==".toList l r ci != neg then .alone c else .line c)) ∧
      cmdBlock c = .ok (some ls) ∧ ls.map unindent = branchLines (if cmpHolds w.strtod "==".toList l r ci != neg then yes else no) := by
  unfold cmdIf
  rw [C49_same hq hqc w u ho hl hle hlq ha h hex]
  cases hb : (cmpHolds w.strtod "==".toList l r ci != neg) with
  | true =>
    obtain ⟨c, ls, h1, h2, h3⟩ := C114_yes_partial hi hy
    exact ⟨c, ls, by simp [h1], h2, by simpa using h3⟩
  | false =>
    obtain ⟨c, ls, h1, h2, h3⟩ := C114_else_partial hi hn
    exact ⟨c, ls, by simp [h1], h2, by simpa using h3⟩

/-- The claim fails: text behind the block that is not ELSE is an error only if the condition does not hold.  If it does, the block runs, and
neither that text nor the rest of the line does, without any error. -/
theorem C114_junk {strict : Bool} {w b v x : List Char} (hw : ∀ c ∈ w, Blank c) (hb : Body strict b) (hv : ∀ c ∈ v, Blank c) (hx : x ≠ [])
    (hx0 : ∀ c, x.head? = some c → ¬ Blank c)
    (he : ¬ ∃ e t, x = e ++ t ∧ e.map Char.toLower = "else".toList ∧ (t = [] ∨ ∃ c r, t = c :: r ∧ Blank c)) :
    ifYes (w ++ '(' :: (b ++ ')' :: (v ++ x))) = .ok (.alone ('(' :: (b ++ [')']))) ∧
      ifNo (w ++ '(' :: (b ++ ')' :: (v ++ x))) = .ok .unexpected := by
  have hm : ¬ Blank '(' := by unfold Blank; decide
  have hn := nextBlock_inside (w := []) (by simp) hb (v ++ x)
  rw [List.nil_append] at hn
  have hel : elseWord x = false := by rw [← Bool.not_eq_true, elseWord_iff]; exact he
  constructor
  · unfold ifYes
    rw [skipBlanks_append hw, skipBlanks_stop hm]
    simp [ifBody, hn, ifBehind_blanks hv, skipBlanks_none hx0, hx, wrapBlock]
  · unfold ifNo
    rw [skipBlanks_append hw, skipBlanks_stop hm]
    simp [hn, ifBehind_blanks hv, skipBlanks_none hx0, hx, hel]

/-- `&` and `|`. -/
def AndOr (c : Char) : Bool := c == '&' || c == '|'

/-- The claim fails: a command with a closing parenthesis, which is run when it stands alone, is not run by IF; it is put between parentheses,
the block ends too early and is refused. -/
theorem C114_parenthesis {w t u : List Char} (hw : ∀ c ∈ w, Blank c) (ht : t ≠ []) (h0 : ∀ c, t.head? = some c → ¬ Blank c ∧ c ≠ '@' ∧ c ≠ '(')
    (hk : ¬ BlockWord (t ++ ['\n'])) (hc : Closed Struct t) (ha : Closed AndOr (t ++ ')' :: u)) :
    ∃ c, ifYes (w ++ (t ++ ')' :: u)) = .ok (.line c) ∧ cmdBlock c = .ok none := by
  obtain ⟨d, t', rfl⟩ := List.exists_cons_of_ne_nil ht
  have hd := h0 d rfl
  have hmar : ¬ Margin d := by exact fun h => h.elim (fun h => hd.1 h.1) hd.2.1
  have hend : hybridTo (lineStop false) (d :: t' ++ ')' :: u) = [] := by
    have : lineStop false = AndOr := by funext c; simp [lineStop, AndOr]
    rw [this]
    exact closed_end ha
  have hle : lineEnd false (d :: t' ++ ')' :: u) = .ok (some (hybridTo (lineStop false) (d :: t' ++ ')' :: u))) :=
    lineEnd_plain hmar hd.2.2 (BlockWord_cut hk (.inl rfl) u)
  rw [hend] at hle
  refine ⟨wrapBlock (d :: t' ++ ')' :: u), ?_, ?_⟩
  · unfold ifYes
    rw [skipBlanks_append hw, List.cons_append, skipBlanks_stop hd.1]
    have : ifBody (d :: (t' ++ ')' :: u)) = .ok (some (d :: (t' ++ ')' :: u), [])) := by
      unfold ifBody
      rw [if_neg (by simpa using hd.2.2)]
      unfold blockLine
      rw [← List.cons_append, hle]
      show Res.ok _ = _
      simp only [List.cons_append, List.head?_cons, Option.some.injEq, hd.2.2, if_false, List.length_nil, Nat.sub_zero, List.take_length]
    rw [this]
    rfl
  · have hb : Body true (d :: t') := .last (.plain (w := []) (by simp) (by rintro c hc; cases hc; exact ⟨hmar, hd.2.2⟩) hk hc)
    have := C112_behind (w := []) (v := u ++ [')']) hb (by simp) ⟨')', by simp, by unfold Blank; decide⟩
    simpa [wrapBlock] using this

/-! ### Commands -/

/-- The hypotheses can be met: a block of two lines, ELSE, and a command. -/
example : IfText true " ( a\n b ) Else c d".toList [" a".toList, " b ".toList] (some ["c d".toList]) := by
  have line : ∀ t : List Char, (∀ c, t.head? = some c → ¬ Margin c ∧ c ≠ '(') → ¬ BlockWord (t ++ ['\n']) → Closed Struct t → Line true false ([' '] ++ t) :=
    fun t h1 h2 h3 => .plain (by decide) h1 h2 h3
  refine .both (w := [' ']) (b := " a\n b ".toList) (v := [' ']) (e := "Else".toList) (t := " c d".toList) (by decide) ?_ (by decide) (by decide)
    (.inr ⟨' ', "c d".toList, rfl, by decide⟩) ?_
  · exact .cons (r := " a".toList) (.one (line "a".toList (by decide) (by decide) (by decide))) (.last (.one (line "b ".toList (by decide) (by decide) (by decide))))
  · exact .command (w := [' ']) (l := "c d".toList) (by decide) (.plain (w := []) (t := "c d".toList) (by simp) (by decide) (by decide) (by decide)) (by decide)

/-- The whole command, for both outcomes. -/
example : cmdIf ⟨.ok, fun _ => false, fun _ => false, [], sampleStrtod⟩ none " x==x ( a\n b ) Else c d".toList = .ok (some (.alone "( a\n b )".toList)) ∧
    cmdIf ⟨.ok, fun _ => false, fun _ => false, [], sampleStrtod⟩ none " NOT x==x ( a\n b ) Else c d".toList = .ok (some (.line "(c d)".toList)) ∧
    cmdBlock "( a\n b )".toList = .ok (some [" a".toList, " b ".toList]) := by
  refine ⟨?_, ?_, ?_⟩ <;> decide +kernel

/-- `else(b)` is not an ELSE. -/
example : ifYes " (a) else(b)".toList = .ok (.alone "(a)".toList) ∧ ifNo " (a) else(b)".toList = .ok .unexpected := by
  constructor <;> decide +kernel

example : ¬ ∃ e t, "else(b)".toList = e ++ t ∧ e.map Char.toLower = "else".toList ∧ (t = [] ∨ ∃ c r, t = c :: r ∧ Blank c) := by
  rw [← elseWord_iff]
  decide

/-- `IF x==x echo :)`. -/
example : ifYes " echo :)".toList = .ok (.line "(echo :))".toList) ∧ cmdBlock "(echo :))".toList = .ok none ∧
    Closed Struct "echo :".toList ∧ Closed AndOr "echo :)".toList ∧ ¬ BlockWord ("echo :".toList ++ ['\n']) := by
  refine ⟨by decide +kernel, by decide +kernel, by decide, by decide, by decide⟩

end PBat
