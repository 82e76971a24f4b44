import Verif.Model.TeaHtml
import Verif.Spec.Html
import Verif.Lemmas.TeaSyntax
import Verif.Lemmas.Shift
import Verif.Props.C88
/-
Lemmas for C91.
-/
namespace PBat
open Spec

/-! ### Escaping -/

/-- A character in HTML. -/
def htmlChar (c : Char) : List Char :=
  if c = '&' then ['&', 'a', 'm', 'p', ';'] else if c = '<' then ['&', 'l', 't', ';'] else if c = '>' then ['&', 'g', 't', ';'] else [c]

def htmlText : List Char → List Char
  | [] => []
  | c :: s => htmlChar c ++ htmlText s

theorem htmlText_append (a b : List Char) : htmlText (a ++ b) = htmlText a ++ htmlText b := by
  induction a with
  | nil => rfl
  | cons c a ih => rw [List.cons_append, htmlText, htmlText, ih, List.append_assoc]

/-- Replacing a character. -/
def onChar (d : Char) (r : List Char) : List Char → List Char
  | [] => []
  | c :: s => (if c = d then r else [c]) ++ onChar d r s

theorem onChar_append (d : Char) (r a b : List Char) : onChar d r (a ++ b) = onChar d r a ++ onChar d r b := by
  induction a with
  | nil => rfl
  | cons c a ih => rw [List.cons_append, onChar, onChar, ih, List.append_assoc]

theorem replaceIn_onChar (d : Char) (r s : List Char) : replaceIn [d] r s = .ok (onChar d r s) := by
  unfold replaceIn
  obtain ⟨ps, e, -⟩ := replacePieces_spec [d] r (by simp) s
  have h : replaceText [d] r s = onChar d r s := by
    clear e
    induction s with
    | nil => rw [replaceText_nil _ _ (by simp)]; rfl
    | cons c s ih =>
      rw [replaceText_cons _ _ (by simp), onChar]
      by_cases hc : c = d
      · subst hc
        simp [ih]
      · have hc' : ¬ d = c := fun h => hc h.symm
        simp [ih, hc, hc', List.isPrefixOf]
  rw [e]
  unfold replaceText at h
  rw [e] at h
  simp only [Res.ok_bind, Res.pure_eq]
  exact congrArg _ h

theorem escape_html (s : List Char) : teaHtmlEscape s = .ok (htmlText s) := by
  unfold teaHtmlEscape
  rw [replaceIn_onChar, Res.ok_bind, replaceIn_onChar, Res.ok_bind, replaceIn_onChar]
  congr 1
  induction s with
  | nil => rfl
  | cons c s ih =>
    rw [onChar, onChar_append, onChar_append, ih, htmlText]
    congr 1
    unfold htmlChar
    by_cases h1 : c = '&'
    · subst h1; decide
    · by_cases h2 : c = '<'
      · subst h2; decide
      · by_cases h3 : c = '>'
        · subst h3; decide
        · simp [h1, h2, h3, onChar]

theorem htmlChar_cases (c : Char) : (c ≠ '&' ∧ c ≠ '<' ∧ c ≠ '>' ∧ htmlChar c = [c]) ∨
    ((c = '&' ∨ c = '<' ∨ c = '>') ∧ ∃ n, htmlChar c = '&' :: n ++ [';'] ∧ htmlRef n = some c ∧ ∀ x ∈ n, x ∈ ['a', 'm', 'p', 'l', 't', 'g']) := by
  by_cases h1 : c = '&'
  · subst h1
    exact .inr ⟨by simp, ['a', 'm', 'p'], by decide, by decide, by decide⟩
  · by_cases h2 : c = '<'
    · subst h2
      exact .inr ⟨by simp, ['l', 't'], by decide, by decide, by decide⟩
    · by_cases h3 : c = '>'
      · subst h3
        exact .inr ⟨by simp, ['g', 't'], by decide, by decide, by decide⟩
      · exact .inl ⟨h1, h2, h3, by simp [htmlChar, h1, h2, h3]⟩

/-- Characters that mean nothing in HTML and are in no name. -/
def HtmlNeutral (c : Char) : Prop := c ∉ ['&', '<', '>', ';', 'a', 'm', 'p', 'l', 't', 'g']

instance (c : Char) : Decidable (HtmlNeutral c) := inferInstanceAs (Decidable (¬ _))

theorem htmlChar_neutral {c : Char} (h : HtmlNeutral c) : htmlChar c = [c] := by
  unfold HtmlNeutral at h
  simp at h
  simp [htmlChar, h.1, h.2.1, h.2.2.1]

theorem mem_htmlChar {c x : Char} (hx : HtmlNeutral x) (h : x ∈ htmlChar c) : x = c := by
  rcases htmlChar_cases c with ⟨-, -, -, e⟩ | ⟨-, n, e, -, hn⟩
  · rw [e] at h
    simpa using h
  · rw [e] at h
    simp only [List.cons_append, List.mem_cons, List.mem_append, List.not_mem_nil, or_false] at h
    exfalso
    apply hx
    rcases h with rfl | h | rfl
    · decide
    · have := hn x h
      simp at this ⊢
      rcases this with h | h | h | h | h | h <;> simp [h]
    · decide

theorem mem_htmlText {x : Char} (hx : HtmlNeutral x) (s : List Char) : x ∈ htmlText s ↔ x ∈ s := by
  induction s with
  | nil => exact Iff.rfl
  | cons c s ih =>
    rw [htmlText, List.mem_append, ih, List.mem_cons]
    constructor
    · rintro (h | h)
      · exact .inl (mem_htmlChar hx h)
      · exact .inr h
    · rintro (rfl | h)
      · left; rw [htmlChar_neutral hx]; simp
      · exact .inr h

theorem htmlText_head (s : List Char) : (htmlText s).head? = s.head?.map fun c => if c = '<' ∨ c = '>' then '&' else c := by
  cases s with
  | nil => rfl
  | cons c s =>
    rw [htmlText]
    unfold htmlChar
    by_cases h1 : c = '&'
    · subst h1; rfl
    · by_cases h2 : c = '<'
      · subst h2; rfl
      · by_cases h3 : c = '>'
        · subst h3; rfl
        · simp [h1, h2, h3]

theorem htmlText_head_is {x : Char} (hx : HtmlNeutral x) (s : List Char) : (htmlText s).head? = some x ↔ s.head? = some x := by
  rw [htmlText_head]
  cases s with
  | nil => simp
  | cons c s =>
    simp only [List.head?_cons, Option.map_some, Option.some.injEq]
    split
    · rename_i h
      constructor
      · rintro rfl; exact absurd hx (by decide)
      · rintro rfl
        exfalso
        apply hx
        rcases h with rfl | rfl <;> decide
    · rfl

theorem htmlText_id {s : List Char} (h : ∀ c ∈ s, c ≠ '&' ∧ c ≠ '<' ∧ c ≠ '>') : htmlText s = s := by
  induction s with
  | nil => rfl
  | cons c s ih =>
    have hc := h c (by simp)
    rw [htmlText, ih fun d hd => h d (by simp [hd])]
    simp [htmlChar, hc]

theorem docSpace_neutral {c : Char} (h : docSpace c = true) : HtmlNeutral c := by
  simp [docSpace] at h
  rcases h with (rfl | rfl) | rfl <;> decide

theorem blank_neutral {c : Char} (h : c = ' ' ∨ c = '\t') : HtmlNeutral c := by
  rcases h with rfl | rfl <;> decide

theorem htmlText_blanks {s : List Char} (h : ∀ c ∈ s, docSpace c = true) : htmlText s = s := by
  apply htmlText_id
  intro c hc
  have := docSpace_neutral (h c hc)
  unfold HtmlNeutral at this
  simp at this
  exact ⟨this.1, this.2.1, this.2.2.1⟩

/-! ### Reading -/

theorem lex_append {m : LexMode} {a : List Char} {x : List HTok} (h : lexHtml m a = some x) (s : List Char) :
    lexHtml m (a ++ s) = (lexHtml .text s).map (x ++ ·) := by
  induction a generalizing m x with
  | nil =>
    cases m with
    | text => cases h; simp
    | tag t => cases h
    | ref n => cases h
  | cons c a ih =>
    cases m with
    | text =>
      rw [lexHtml] at h
      rw [List.cons_append, lexHtml]
      split
      · rename_i hc; rw [if_pos hc] at h; exact ih h
      · rename_i hc
        rw [if_neg hc] at h
        split
        · rename_i hc2; rw [if_pos hc2] at h; exact ih h
        · rename_i hc2
          rw [if_neg hc2] at h
          split
          · rename_i hc3; rw [if_pos hc3] at h; cases h
          · rename_i hc3
            rw [if_neg hc3, Option.map_eq_some_iff] at h
            obtain ⟨y, h, rfl⟩ := h
            rw [ih h, Option.map_map]
            rfl
    | tag t =>
      rw [lexHtml] at h
      rw [List.cons_append, lexHtml]
      split
      · rename_i hc
        rw [if_pos hc, Option.bind_eq_some_iff] at h
        obtain ⟨k, hk, h⟩ := h
        rw [Option.map_eq_some_iff] at h
        obtain ⟨y, h, rfl⟩ := h
        rw [hk, Option.bind_some, ih h, Option.map_map]
        rfl
      · rename_i hc; rw [if_neg hc] at h; exact ih h
    | ref n =>
      rw [lexHtml] at h
      rw [List.cons_append, lexHtml]
      split
      · rename_i hc
        rw [if_pos hc, Option.bind_eq_some_iff] at h
        obtain ⟨k, hk, h⟩ := h
        rw [Option.map_eq_some_iff] at h
        obtain ⟨y, h, rfl⟩ := h
        rw [hk, Option.bind_some, ih h, Option.map_map]
        rfl
      · rename_i hc; rw [if_neg hc] at h; exact ih h

theorem lex_tag (u t s : List Char) (h : '>' ∉ t) : lexHtml (.tag u) (t ++ '>' :: s) = (htmlTag (u ++ t)).bind fun k => (lexHtml .text s).map (k :: ·) := by
  induction t generalizing u with
  | nil => rw [List.nil_append, lexHtml, if_pos rfl, List.append_nil]
  | cons c t ih =>
    rw [List.mem_cons, not_or] at h
    rw [List.cons_append, lexHtml, if_neg (fun e => h.1 e.symm), ih _ h.2]
    simp

theorem lex_ref (u n s : List Char) (h : ';' ∉ n) : lexHtml (.ref u) (n ++ ';' :: s) = (htmlRef (u ++ n)).bind fun d => (lexHtml .text s).map (.char d :: ·) := by
  induction n generalizing u with
  | nil => rw [List.nil_append, lexHtml, if_pos rfl, List.append_nil]
  | cons c n ih =>
    rw [List.mem_cons, not_or] at h
    rw [List.cons_append, lexHtml, if_neg (fun e => h.1 e.symm), ih _ h.2]
    simp

theorem lex_char (c : Char) : lexHtml .text (htmlChar c) = some [.char c] := by
  rcases htmlChar_cases c with ⟨h1, h2, h3, e⟩ | ⟨-, n, e, hr, hn⟩
  · rw [e, lexHtml, if_neg h2, if_neg h1, if_neg h3]; rfl
  · rw [e, List.cons_append, lexHtml, if_neg (by decide), if_pos rfl, lex_ref [] n [] (fun h => absurd (hn _ h) (by decide)), List.nil_append, hr]
    rfl

theorem lex_text (s : List Char) : lexHtml .text (htmlText s) = some (s.map .char) := by
  induction s with
  | nil => rfl
  | cons c s ih => rw [htmlText, lex_append (lex_char c), ih]; rfl

theorem value_ref (u n s : List Char) (h : ';' ∉ n) : htmlValue (some u) (n ++ ';' :: s) = (htmlRef (u ++ n)).bind fun d => (htmlValue none s).map (d :: ·) := by
  induction n generalizing u with
  | nil => rw [List.nil_append, htmlValue]; simp only [if_pos, List.append_nil]
  | cons c n ih =>
    rw [List.mem_cons, not_or] at h
    rw [List.cons_append, htmlValue]
    rw [if_neg (fun e => h.1 e.symm), ih _ h.2]
    simp

theorem value_text (s : List Char) (h : '"' ∉ s) : htmlValue none (htmlText s) = some s := by
  induction s with
  | nil => rfl
  | cons c s ih =>
    rw [List.mem_cons, not_or] at h
    rw [htmlText]
    rcases htmlChar_cases c with ⟨h1, h2, h3, e⟩ | ⟨-, n, e, hr, hn⟩
    · rw [e, List.cons_append, List.nil_append, htmlValue]
      have hx : ¬ (c = '<' ∨ c = '>' ∨ c = '"') := by
        rintro (g | g | g)
        · exact h2 g
        · exact h3 g
        · exact h.1 g.symm
      rw [if_neg h1, if_neg hx, ih h.2]
      rfl
    · rw [e, List.append_assoc, List.cons_append, htmlValue]
      rw [if_pos rfl, List.cons_append, List.nil_append, value_ref [] n _ (fun h => absurd (hn _ h) (by decide)), List.nil_append, hr, ih h.2]
      rfl

/-- A piece of HTML that brings the reader from a state to another, and shows something. -/
def Shows (s : List Char) (a b : HState) (out : List Seen) : Prop :=
  ∃ toks, lexHtml .text s = some toks ∧ ∀ r, readToks a (toks ++ r) = (readToks b r).map (out ++ ·)

theorem Shows.nil (a : HState) : Shows [] a a [] := ⟨[], rfl, fun r => by simp⟩

theorem Shows.append {s t : List Char} {a b c : HState} {o q : List Seen} (h1 : Shows s a b o) (h2 : Shows t b c q) : Shows (s ++ t) a c (o ++ q) := by
  obtain ⟨x, e1, g1⟩ := h1
  obtain ⟨y, e2, g2⟩ := h2
  refine ⟨x ++ y, ?_, fun r => ?_⟩
  · rw [lex_append e1, e2]; rfl
  · rw [List.append_assoc, g1, g2, Option.map_map]
    congr 1
    funext z
    simp

/-- Nothing is shown by the first. -/
theorem Shows.then {s t : List Char} {a b c : HState} {q : List Seen} (h1 : Shows s a b []) (h2 : Shows t b c q) : Shows (s ++ t) a c q := h1.append h2

theorem Shows.one {s : List Char} {a b : HState} {k : HTok} {o : List Seen} (h : lexHtml .text s = some [k]) (g : readStep a k = some (b, o)) : Shows s a b o := by
  refine ⟨[k], h, fun r => ?_⟩
  rw [List.cons_append, List.nil_append, readToks.eq_def]
  cases a <;> simp only [g, Option.bind_some]

theorem Shows.read {s : List Char} {f : Bool} {o : List Seen} (h : Shows s (.flow 0 false) (.flow 0 f) o) : readHtml s = some o := by
  obtain ⟨x, e, g⟩ := h
  have := g []
  rw [List.append_nil] at this
  rw [readHtml, e, Option.bind_some, this]
  simp [readToks]

/-- How the characters of a block are shown. -/
def blockChar (tag : List Char) (sty : HStyle) (c : Char) : HStyle × Char := (sty, if c = '\n' ∧ tag ≠ ['c', 'o', 'd', 'e'] then ' ' else c)

theorem shows_text (tag : List Char) (d : Nat) (f : Bool) (sty : HStyle) (text : List (HStyle × Char)) (s : List Char) :
    Shows (htmlText s) (.block tag d f sty text) (.block tag d f sty (text ++ s.map (blockChar tag sty))) [] := by
  induction s generalizing text with
  | nil => rw [List.map_nil, List.append_nil]; exact .nil _
  | cons c s ih =>
    rw [htmlText]
    refine Shows.then (b := .block tag d f sty (text ++ [blockChar tag sty c])) (.one (lex_char c) rfl) ?_
    have := ih (text ++ [blockChar tag sty c])
    rwa [List.append_assoc] at this

/-- The text of titles and code. -/
theorem shows_lines (tag : List Char) (d : Nat) (f : Bool) (sty : HStyle) (text : List (HStyle × Char)) (s : List Char) :
    Shows (onChar '\n' ['<', 'b', 'r', ' ', '/', '>'] (htmlText s)) (.block tag d f sty text) (.block tag d f sty (text ++ s.map fun c => (sty, c))) [] := by
  induction s generalizing text with
  | nil => rw [List.map_nil, List.append_nil]; exact .nil _
  | cons c s ih =>
    rw [htmlText, onChar_append]
    refine Shows.then (b := .block tag d f sty (text ++ [(sty, c)])) ?_ ?_
    · by_cases hc : c = '\n'
      · subst hc
        refine .one (k := .line) (by decide) rfl
      · refine .one (k := .char c) ?_ ?_
        · have : onChar '\n' ['<', 'b', 'r', ' ', '/', '>'] (htmlChar c) = htmlChar c := by
            rcases htmlChar_cases c with ⟨-, -, -, e⟩ | ⟨h, -⟩
            · rw [e]; simp [onChar, hc]
            · rcases h with rfl | rfl | rfl <;> decide
          rw [this, lex_char]
        · show some _ = _
          rw [if_neg (fun h => hc h.1)]
    · have := ih (text ++ [(sty, c)])
      rwa [List.append_assoc] at this

theorem shows_gap (d : Nat) (f : Bool) : Shows ['\n', '\n'] (.flow d f) (.flow d f) [] :=
  Shows.then (s := ['\n']) (.one (k := .char '\n') (by decide) rfl) (.one (k := .char '\n') (by decide) rfl)

theorem shows_down (d : Nat) (f : Bool) : Shows teaLiDown (.flow (d + 1) f) (.flow d false) [] :=
  Shows.then (s := ['<', '/', 'l', 'i', '>']) (.one (k := .closing ['l', 'i']) (by decide) rfl)
    (Shows.then (s := ['<', '/', 'u', 'l', '>']) (.one (k := .closing ['u', 'l']) (by decide) rfl) (.one (k := .char '\n') (by decide) rfl))

theorem shows_up (d : Nat) (f : Bool) : Shows teaLiUp (.flow d f) (.flow (d + 1) true) [] :=
  Shows.then (s := ['<', 'u', 'l', '>']) (.one (k := .opening ['u', 'l'] none) (by decide) rfl)
    (Shows.then (s := ['<', 'l', 'i', '>']) (.one (k := .opening ['l', 'i'] none) (by decide) rfl) (.one (k := .char '\n') (by decide) rfl))

theorem shows_downs (k d : Nat) : Shows (List.replicate k teaLiDown).flatten (.flow (d + k) false) (.flow d false) [] := by
  induction k with
  | zero => exact .nil _
  | succ k ih => rw [List.replicate_succ, List.flatten_cons]; exact Shows.then (shows_down (d + k) false) ih

theorem shows_ups (k d : Nat) (f : Bool) : Shows (List.replicate k teaLiUp).flatten (.flow d f) (.flow (d + k) (f || 0 < k)) [] := by
  induction k generalizing d f with
  | zero => rw [show (f || decide (0 < 0)) = f by simp]; exact .nil _
  | succ k ih =>
    rw [List.replicate_succ, List.flatten_cons]
    have := ih (d + 1) true
    rw [show d + 1 + k = d + (k + 1) by omega, Bool.true_or] at this
    rw [show (f || decide (0 < k + 1)) = true by simp]
    exact Shows.then (shows_up d f) this

theorem shows_levels (last level : Nat) : Shows (teaHtmlLevels last level) (.flow last false) (.flow level (last < level)) [] := by
  unfold teaHtmlLevels
  by_cases h : last < level
  · rw [show last - level = 0 by omega, List.replicate_zero, List.flatten_nil, List.nil_append]
    have := shows_ups (level - last) last false
    rw [show last + (level - last) = level by omega, Bool.false_or] at this
    simpa [h, show 0 < level - last by omega] using this
  · rw [show level - last = 0 by omega, List.replicate_zero, List.flatten_nil, List.append_nil]
    have := shows_downs (last - level) level
    rw [show level + (last - level) = last by omega] at this
    simpa [h] using this

/-! ### Links -/

/-- A dot after the last slash. -/
def dotAfter : List Char → Bool
  | [] => false
  | c :: s => dotAfter s || (c == '.' && !s.contains '/')

theorem dotAfter_none {s : List Char} (h : '/' ∉ s) : dotAfter s = s.contains '.' := by
  induction s with
  | nil => rfl
  | cons c s ih =>
    rw [List.mem_cons, not_or] at h
    have hs : s.contains '/' = false := by simpa using h.2
    rw [dotAfter, ih h.2, hs, List.contains_cons, Bool.or_comm]
    by_cases hc : c = '.'
    · subst hc; simp
    · have e1 : (c == '.') = false := by simpa using hc
      have e2 : ('.' == c) = false := by simpa using fun e => hc (Eq.symm e)
      rw [e1, e2]
      simp

theorem dotAfter_split (a b : List Char) (h : '/' ∉ b) : dotAfter (a ++ '/' :: b) = b.contains '.' := by
  induction a with
  | nil => rw [List.nil_append, dotAfter, dotAfter_none h]; simp
  | cons c a ih => rw [List.cons_append, dotAfter, ih]; simp

theorem last_slash (s : List Char) : (teaLastAt '/' s = none ∧ '/' ∉ s) ∨ ∃ a b, s = a ++ '/' :: b ∧ '/' ∉ b ∧ teaLastAt '/' s = some ('/' :: b) := by
  induction s with
  | nil => exact .inl ⟨rfl, by simp⟩
  | cons c s ih =>
    rcases ih with ⟨h1, h2⟩ | ⟨a, b, rfl, h1, h2⟩
    · rw [teaLastAt, h1]
      by_cases hc : c = '/'
      · subst hc
        exact .inr ⟨[], s, rfl, h2, by simp⟩
      · have hc' : ¬ '/' = c := fun e => hc e.symm
        exact .inl ⟨by simp [hc], by simp [hc', h2]⟩
    · exact .inr ⟨c :: a, b, rfl, h1, by rw [teaLastAt, h2]⟩

theorem lastAt_dot (s : List Char) : ((teaLastAt '/' s).getD s).contains '.' = dotAfter s := by
  rcases last_slash s with ⟨h1, h2⟩ | ⟨a, b, rfl, h1, h2⟩
  · rw [h1, dotAfter_none h2]; rfl
  · rw [h2, dotAfter_split a b h1]; simp

theorem reverse_dot (s : List Char) : (s.reverse.takeWhile (· != '/')).contains '.' = dotAfter s := by
  have key : ∀ (b rest : List Char), '/' ∉ b → (b ++ rest).takeWhile (· != '/') = b ++ rest.takeWhile (· != '/') := by
    intro b rest h
    induction b with
    | nil => rfl
    | cons c b ih =>
      rw [List.mem_cons, not_or] at h
      have hc : ¬ c = '/' := fun e => h.1 e.symm
      rw [List.cons_append, List.takeWhile_cons_of_pos (by simp [hc]), ih h.2]
      rfl
  rcases last_slash s with ⟨-, h2⟩ | ⟨a, b, rfl, h1, -⟩
  · have := key s.reverse [] (by simpa using h2)
    rw [List.append_nil] at this
    rw [this, dotAfter_none h2]
    simp
  · rw [dotAfter_split a b h1, List.reverse_append, List.reverse_cons, List.append_assoc, key _ _ (by simpa using h1)]
    simp

theorem dotAfter_html (s : List Char) : dotAfter (htmlText s) = dotAfter s := by
  induction s with
  | nil => rfl
  | cons c s ih =>
    have hs : (htmlText s).contains '/' = s.contains '/' := by
      have := mem_htmlText (x := '/') (by decide) s
      rw [Bool.eq_iff_iff]; simpa using this
    rw [htmlText]
    rcases htmlChar_cases c with ⟨-, -, -, e⟩ | ⟨h, -⟩
    · rw [e, List.cons_append, List.nil_append, dotAfter, dotAfter, ih, hs]
    · rcases h with rfl | rfl | rfl <;> simp [htmlChar, dotAfter, ih]

theorem prefix_html {q : List Char} (hq : ∀ c ∈ q, c ≠ '&' ∧ c ≠ '<' ∧ c ≠ '>') (t : List Char) : q.isPrefixOf (htmlText t) = q.isPrefixOf t := by
  induction q generalizing t with
  | nil => simp
  | cons c q ih =>
    have hc := hq c (by simp)
    cases t with
    | nil => rfl
    | cons d t =>
      rw [htmlText]
      rcases htmlChar_cases d with ⟨-, -, -, e⟩ | ⟨h, n, e, -⟩
      · rw [e, List.cons_append, List.nil_append, List.isPrefixOf, List.isPrefixOf, ih (fun x hx => hq x (by simp [hx]))]
      · rw [e, List.cons_append, List.cons_append, List.isPrefixOf, List.isPrefixOf]
        have h1 : (c == '&') = false := by simp [hc.1]
        have h2 : (c == d) = false := by rcases h with rfl | rfl | rfl <;> simp [hc]
        rw [h1, h2]; rfl

theorem ext_html (t : List Char) : htmlText t ++ teaExt false (htmlText t) = htmlText (withExtension t) := by
  unfold teaExt withExtension
  simp only [lastAt_dot, reverse_dot, dotAfter_html]
  rw [prefix_html (by decide), prefix_html (by decide), prefix_html (by decide)]
  by_cases hd : dotAfter t = true
  · simp [hd]
  · simp only [Bool.not_eq_true] at hd
    by_cases h1 : ['h', 't', 't', 'p', ':', '/', '/'].isPrefixOf t = true
    · simp [h1]
    · by_cases h2 : ['h', 't', 't', 'p', 's', ':', '/', '/'].isPrefixOf t = true
      · simp [h2]
      · by_cases h3 : ['m', 'a', 'i', 'l', ':', '/', '/'].isPrefixOf t = true
        · simp [h3]
        · simp only [h1, h2, h3, hd, Bool.false_eq_true, or_self, if_false]
          rw [htmlText_append]
          rfl

theorem html_no_gt (s : List Char) : '>' ∉ htmlText s := by
  induction s with
  | nil => simp [htmlText]
  | cons c s ih =>
    rw [htmlText, List.mem_append, not_or]
    refine ⟨?_, ih⟩
    rcases htmlChar_cases c with ⟨-, -, h3, e⟩ | ⟨h, -⟩
    · rw [e]; simp; exact fun e => h3 e.symm
    · rcases h with rfl | rfl | rfl <;> decide

theorem ext_quote {t : List Char} (h : '"' ∉ t) : '"' ∉ withExtension t := by
  unfold withExtension
  split
  · exact h
  · simp [h]

theorem lex_link (t : List Char) (h : '"' ∉ t) :
    lexHtml .text (['<', 'a', ' ', 'h', 'r', 'e', 'f', '=', '"'] ++ htmlText t ++ teaExt false (htmlText t) ++ ['"', '>']) = some [.opening ['a'] (some (withExtension t))] := by
  rw [List.append_assoc _ (htmlText t), ext_html]
  have hg : '>' ∉ ['a', ' ', 'h', 'r', 'e', 'f', '=', '"'] ++ htmlText (withExtension t) ++ ['"'] := by
    simp [html_no_gt]
  have e : ['<', 'a', ' ', 'h', 'r', 'e', 'f', '=', '"'] ++ htmlText (withExtension t) ++ ['"', '>'] =
      '<' :: ((['a', ' ', 'h', 'r', 'e', 'f', '=', '"'] ++ htmlText (withExtension t) ++ ['"']) ++ '>' :: []) := by simp
  rw [e, lexHtml, if_pos rfl, lex_tag _ _ _ hg, List.nil_append]
  have ht : htmlTag (['a', ' ', 'h', 'r', 'e', 'f', '=', '"'] ++ htmlText (withExtension t) ++ ['"']) = some (.opening ['a'] (some (withExtension t))) := by
    unfold htmlTag
    rw [if_neg (by simp), if_neg (by simp), if_pos (by simp [List.isPrefixOf]), if_pos ⟨List.getLast?_concat .., by simp⟩]
    have : ((['a', ' ', 'h', 'r', 'e', 'f', '=', '"'] ++ htmlText (withExtension t) ++ ['"']).drop 8).dropLast = htmlText (withExtension t) := by
      simp
    rw [this, value_text _ (ext_quote h)]
    rfl
  rw [ht]
  rfl

end PBat
