import Verif.Model.ForInput
import Verif.Spec.ForInput
import Verif.Props.C04
import Verif.Props.C48
import Verif.Lemmas.For
import Verif.Lemmas.Args
/-
Lemmas on the inputs of FOR /F.
-/
namespace PBat
open Spec

theorem fileLines_norm {s : List Char} (hcr : ∀ i, s[i]? = some '\r' → s[i + 1]? = some '\n') : fileLines s = lines (normNL s) := by
  unfold fileLines
  have key : ∀ (n : Nat) (s : List Char), s.length = n → (∀ i, s[i]? = some '\r' → s[i + 1]? = some '\n') →
      (lines s).map normNL = lines (normNL s) := by
    intro n
    induction n using Nat.strongRecOn with
    | _ n ih =>
      intro s hn hcr
      match s, hn, hcr with
      | [], _, _ => rfl
      | [c], _, hcr =>
        by_cases hc : c = '\r'
        · have := hcr 0 (by simp [hc]); simp at this
        · by_cases hl : c = '\n'
          · subst hl; rfl
          · simp [lines, normNL, hc, hl]
      | c :: d :: r, hn, hcr =>
        simp only [List.length_cons] at hn
        have hr := ih r.length (by omega) r rfl (fun i hi => by simpa using hcr (i + 2) (by simpa using hi))
        have hd := ih (d :: r).length (by simp; omega) (d :: r) rfl
          (fun i hi => by simpa using hcr (i + 1) (by simpa using hi))
        by_cases hc : c = '\r'
        · have h1 := hcr 0 (by simp [hc])
          simp at h1
          subst hc h1
          simp only [normNL, if_true]
          rw [lines]
          simp only [lines, if_true]
          simp [normNL, hr]
        · simp only [normNL, hc, if_false]
          by_cases hl : c = '\n'
          · subst hl
            rw [lines_cons '\n' (d :: r), lines_cons '\n' (normNL (d :: r))]
            simp only [if_true, List.map_cons, hd]
            rfl
          · rw [lines_cons c (d :: r), lines_cons c (normNL (d :: r))]
            simp only [hl, if_false]
            rw [← hd]
            cases hld : lines (d :: r) with
            | nil => exact absurd hld (lines_ne_nil d r)
            | cons l ls =>
              simp only [List.map_cons]
              congr 1
              cases l with
              | nil => exact absurd hld (fun h => lines_head_ne h)
              | cons x xs => simp [normNL, hc]
  exact key _ s rfl hcr

theorem lines_text {l t : List Char} (hn : '\n' ∉ l) : lines (l ++ '\n' :: t) = (l ++ ['\n']) :: lines t := by
  induction l with
  | nil => rw [List.nil_append, lines, if_pos rfl]; rfl
  | cons c l ih =>
    simp only [List.mem_cons, not_or] at hn
    rw [List.cons_append, lines, if_neg (Ne.symm hn.1), ih hn.2]
    rfl

theorem takeWhile_nl {l t : List Char} (hn : '\n' ∉ l) : (l ++ '\n' :: t).takeWhile (· != '\n') = l := by
  induction l with
  | nil => simp
  | cons c l ih =>
    simp only [List.mem_cons, not_or] at hn
    simp [Ne.symm hn.1, ih hn.2]

theorem takeWhile_all_nl {l : List Char} (hn : '\n' ∉ l) : l.takeWhile (· != '\n') = l := by
  induction l with
  | nil => simp
  | cons c l ih =>
    simp only [List.mem_cons, not_or] at hn
    simp [Ne.symm hn.1, ih hn.2]

theorem skipBlanks_nil_iff (l : List Char) : skipBlanks l = [] ↔ ∀ c ∈ l, Blank c := by
  constructor
  · intro h
    induction l with
    | nil => simp
    | cons c l ih =>
      rw [skipBlanks] at h
      split at h
      · next hd =>
        intro x hx
        rcases List.mem_cons.1 hx with rfl | hx
        · exact (isDelim_iff _).1 hd
        · exact ih h x hx
      · simp at h
  · intro h
    have := skipBlanks_append (s := []) h
    rw [List.append_nil] at this
    rw [this]; rfl

/-- A line kept by CMDLYCORRECT. -/
def keptLine (cc : Bool) (l : List Char) : Bool := !(cc && skipBlanks l == [])

/-- The texts given to the loop. -/
def lineTexts (cc : Bool) (raws : List (List Char)) : List (List Char) := (raws.filter (keptLine cc)).map (·.takeWhile (· != '\n'))

theorem keptLine_cut {cc : Bool} {l : List Char} (hn : '\n' ∉ l) : keptLine cc (l ++ ['\n']) = keptLine cc l := by
  unfold keptLine
  congr 2
  rw [Bool.eq_iff_iff]
  simp only [beq_iff_eq, skipBlanks_nil_iff, List.mem_append, List.mem_singleton]
  constructor
  · intro h c hc; exact h c (.inl hc)
  · intro h c hc
    rcases hc with hc | rfl
    · exact h c hc
    · decide

theorem lineTexts_append (cc : Bool) (a b : List (List Char)) : lineTexts cc (a ++ b) = lineTexts cc a ++ lineTexts cc b := by
  simp [lineTexts]

theorem textLines_clean {t : List Char} {ls : List (List Char)} (h : TextLines t ls) : ∀ l ∈ ls, '\n' ∉ l := by
  induction h with
  | nil => simp
  | last h hn => simpa using hn
  | cons hn _ ih =>
    intro l hl
    rcases List.mem_cons.1 hl with rfl | hl
    · exact hn
    · exact ih l hl

theorem lineTexts_clean {cc : Bool} {ls : List (List Char)} (h : ∀ l ∈ ls, '\n' ∉ l) : lineTexts cc ls = ls.filter (keptLine cc) := by
  unfold lineTexts
  have : ∀ l ∈ ls.filter (keptLine cc), l.takeWhile (· != '\n') = l := fun l hl => takeWhile_all_nl (h l (List.mem_filter.1 hl).1)
  rw [List.map_congr_left this, List.map_id']

theorem lineTexts_lines {cc : Bool} {t : List Char} {ls : List (List Char)} (h : TextLines t ls) :
    lineTexts cc (lines t) = ls.filter (keptLine cc) := by
  induction h with
  | nil => rfl
  | @last l h hn =>
    rw [lines_last _ hn h, lineTexts_clean (by simpa using hn)]
  | @cons l t ls hn _ ih =>
    rw [lines_text hn]
    have : lineTexts cc ((l ++ ['\n']) :: lines t) = lineTexts cc [l ++ ['\n']] ++ lineTexts cc (lines t) := lineTexts_append cc [_] _
    rw [this, ih]
    unfold lineTexts
    rw [List.filter_cons, List.filter_cons, keptLine_cut hn]
    cases keptLine cc l with
    | true => simp [takeWhile_nl hn]
    | false => simp

theorem lineTexts_file {cc : Bool} {s : List Char} {ls : List (List Char)} (h : ContentLines s ls) :
    lineTexts cc (fileLines s) = ls.filter (keptLine cc) := by
  rw [fileLines_norm h.1]
  exact lineTexts_lines h.2

/-- The lines a source gives as they are read, when every file holds `content`. -/
def ForSrc.raws (content : List Char → List Char) : ForSrc → List (List Char)
  | .text s => stringLines s
  | .stream ls fs => ls ++ fs.flatMap (fun f => fileLines (content f))
  | .lost => []

/-- The files of a source can be opened. -/
def ForSrc.Opens (op : List Char → Option (List Char)) (content : List Char → List Char) : ForSrc → Prop
  | .text _ => True
  | .stream _ fs => ∀ f ∈ fs, op f = some (content f)
  | .lost => False

/-- What is left of a source. -/
def ForSrc.Le (s s' : ForSrc) : Prop :=
  ∀ op content, s'.Opens op content → s.Opens op content

theorem nextFile_spec {op : List Char → Option (List Char)} {content : List Char → List Char} : ∀ {fs : List (List Char)},
    (∀ f ∈ fs, op f = some (content f)) →
    ((fs.flatMap (fun f => fileLines (content f)) = [] ∧ nextFile op fs = (none, .stream [] [])) ∨
      ∃ l ls fs', nextFile op fs = (some l, .stream ls fs') ∧ fs' <:+ fs ∧
        fs.flatMap (fun f => fileLines (content f)) = l :: (ls ++ fs'.flatMap (fun f => fileLines (content f)))) := by
  intro fs
  induction fs with
  | nil => intro _; exact .inl ⟨rfl, rfl⟩
  | cons f fs ih =>
    intro h
    rw [nextFile, h f (by simp)]
    simp only
    rw [List.flatMap_cons]
    cases hl : fileLines (content f) with
    | nil =>
      simp only [List.nil_append]
      rcases ih (fun x hx => h x (by simp [hx])) with ⟨h1, h2⟩ | ⟨l, ls, fs', h1, h2, h3⟩
      · exact .inl ⟨h1, h2⟩
      · exact .inr ⟨l, ls, fs', h1, h2.trans (List.suffix_cons _ _), h3⟩
    | cons l ls => exact .inr ⟨l, ls, fs, rfl, List.suffix_cons _ _, rfl⟩

theorem rawLine_spec {op : List Char → Option (List Char)} {content : List Char → List Char} {src : ForSrc} (h : src.Opens op content) :
    (src.raws content = [] ∧ ∃ s, rawLine op src = (none, s) ∧ s ≠ .lost) ∨
      ∃ l s, rawLine op src = (some l, s) ∧ src.raws content = l :: s.raws content ∧ s.Le src := by
  cases src with
  | text t =>
    cases t with
    | nil => exact .inl ⟨by simp [ForSrc.raws, stringLines], _, rfl, by simp⟩
    | cons c r =>
      refine .inr ⟨_, _, rfl, ?_, fun _ _ _ => trivial⟩
      show stringLines (c :: r) = _
      rw [stringLines]
      rfl
  | stream ls fs =>
    cases ls with
    | cons l ls => exact .inr ⟨l, _, rfl, rfl, fun _ _ h => h⟩
    | nil =>
      rcases nextFile_spec (op := op) (content := content) (fs := fs) h with ⟨h1, h2⟩ | ⟨l, ls, fs', h1, h2, h3⟩
      · exact .inl ⟨by simpa [ForSrc.raws] using h1, _, h2, by simp⟩
      · refine .inr ⟨l, _, h1, by simpa [ForSrc.raws] using h3, ?_⟩
        intro op' c' h' f hf
        exact h' f (h2.subset hf)
  | lost => exact absurd h id

theorem forGetLine_spec {op : List Char → Option (List Char)} {content : List Char → List Char} {cc : Bool} {src : ForSrc}
    (h : src.Opens op content) :
    (lineTexts cc (src.raws content) = [] ∧ ∃ s, forGetLine op cc src = (none, s) ∧ s ≠ .lost) ∨
      ∃ l s, forGetLine op cc src = (some l, s) ∧ lineTexts cc (src.raws content) = l :: lineTexts cc (s.raws content) ∧ s.Le src := by
  induction src using forGetLine.induct (op := op) (cc := cc) with
  | case1 s x hr =>
    rcases rawLine_spec h with ⟨h1, x', h2, h3⟩ | ⟨l, x', h1, -⟩
    · refine .inl ⟨by rw [h1]; rfl, x, ?_, ?_⟩
      · rw [forGetLine, hr]
      · rw [hr] at h2; cases h2; exact h3
    · rw [hr] at h1; cases h1
  | case2 s l x hr hb ih =>
    rcases rawLine_spec h with ⟨h1, x', h2, h3⟩ | ⟨l', x', h1, h2, h3⟩
    · rw [hr] at h2; cases h2
    · rw [hr] at h1; cases h1
      have hk : lineTexts cc (s.raws content) = lineTexts cc (x.raws content) := by
        rw [h2]
        unfold lineTexts
        rw [List.filter_cons, if_neg (by simp only [keptLine, hb]; simp)]
      have he : forGetLine op cc s = forGetLine op cc x := by
        conv => lhs; rw [forGetLine, hr]
        simp only [hb, if_true]
      rw [hk, he]
      rcases ih (h3 _ _ h) with h4 | ⟨l', x', h4, h5, h6⟩
      · exact .inl h4
      · exact .inr ⟨l', x', h4, h5, fun o c hc => h6 o c (h3 o c hc)⟩
  | case3 s l x hr hb =>
    rcases rawLine_spec h with ⟨h1, x', h2, h3⟩ | ⟨l', x', h1, h2, h3⟩
    · rw [hr] at h2; cases h2
    · rw [hr] at h1; cases h1
      refine .inr ⟨l.takeWhile (· != '\n'), x, ?_, ?_, h3⟩
      · rw [forGetLine, hr]
        simp only [hb, Bool.false_eq_true, if_false]
      · rw [h2]
        unfold lineTexts
        rw [List.filter_cons, if_pos (by simp only [keptLine, hb]; simp)]
        rfl

theorem forFRead_spec {σ : Type} {info : ForInfo} {cc : Bool} {op : σ → List Char → Option (List Char)}
    {body : LocalBlock × σ → Res ((LocalBlock × σ) × Bool)} {content : List Char → List Char} (ls : List (List Char)) :
    ∀ {src : ForSrc} (skip : Int) (st : LocalBlock × σ), (∀ x, src.Opens (op x) content) → lineTexts cc (src.raws content) = ls →
    forFRead info cc op body skip src st = forFLoop info body skip ls st := by
  induction ls with
  | nil =>
    intro src skip st h hl
    rw [forFRead, forFLoop]
    rcases forGetLine_spec (cc := cc) (h st.2) with ⟨h1, s, h2, h3⟩ | ⟨l, s, h1, h2, h3⟩
    · rw [h2]
      cases s with
      | lost => exact absurd rfl h3
      | _ => rfl
    · rw [hl] at h2; cases h2
  | cons l ls ih =>
    intro src skip st h hl
    rw [forFRead, forFLoop]
    rcases forGetLine_spec (cc := cc) (h st.2) with ⟨h1, -⟩ | ⟨l', s, h1, h2, h3⟩
    · rw [hl] at h1; cases h1
    · rw [hl] at h2; cases h2
      rw [h1]
      simp only
      have h4 : ∀ x, s.Opens (op x) content := fun x => h3 _ _ (h x)
      rw [ih _ _ h4 rfl, ih _ _ h4 rfl]
      congr 2
      cases hb : body (forSplitTokens info.delims l info.tokens info.var st.1, st.2) with
      | ub => rfl
      | hang => rfl
      | ok r =>
        obtain ⟨st', b⟩ := r
        cases b with
        | true => rfl
        | false => exact ih _ _ h4 rfl

theorem forFLoop_wanted {σ : Type} (info : ForInfo) (body : LocalBlock × σ → Res ((LocalBlock × σ) × Bool)) :
    ∀ (ls : List (List Char)) (skip : Int) (st : LocalBlock × σ), (info.eol = [] ∨ ∀ l ∈ ls, l ≠ []) → forFLoop info body skip ls st =
      forValues (fun l st => body (forSplitTokens info.delims l info.tokens info.var st.1, st.2)) (wanted skip.toNat info.eol ls) st := by
  intro ls
  induction ls with
  | nil => intro skip st _; rw [forFLoop]; simp [wanted, forValues]
  | cons l ls ih =>
    intro skip st he
    have he' : info.eol = [] ∨ ∀ l ∈ ls, l ≠ [] := he.imp id (fun h x hx => h x (by simp [hx]))
    rw [forFLoop]
    split
    · next h =>
      rw [ih _ _ he']
      have : skip.toNat = (skip - 1).toNat + 1 := by omega
      rw [this]
      rfl
    · next h =>
      have hs : skip.toNat = 0 := by omega
      split
      · next h2 =>
        rw [ih _ _ he', hs]
        unfold wanted
        rw [List.drop_zero, List.drop_zero, List.filter_cons_of_neg]
        unfold eolLine at h2
        cases l with
        | nil =>
          rcases he with he | he
          · simp [he] at h2
          · exact absurd rfl (he [] (by simp))
        | cons c r =>
          simp at h2
          simp [h2.2]
      · next h2 =>
        have hk : wanted skip.toNat info.eol (l :: ls) = l :: wanted skip.toNat info.eol ls := by
          rw [hs]
          unfold wanted
          rw [List.drop_zero, List.drop_zero, List.filter_cons_of_pos]
          unfold eolLine at h2
          cases l with
          | nil => rfl
          | cons c r =>
            simp at h2
            simp
            intro hc
            exact h2 (by rintro h; rw [h] at hc; simp at hc) hc
        rw [hk, forValues]
        cases hr : body (forSplitTokens info.delims l info.tokens info.var st.1, st.2) with
        | ub => rfl
        | hang => rfl
        | ok r =>
          obtain ⟨st', ab⟩ := r
          simp only [Res.ok_bind]
          cases ab with
          | true => rfl
          | false => simp only [Bool.false_eq_true, if_false]; exact ih _ _ he'

theorem kept_plain {cc : Bool} {ls : List (List Char)}
    (h : cc = true → ∀ l ∈ ls, (∀ c ∈ l, Blank c) → ∀ c ∈ l, c = ' ' ∨ c = '\t') : ls.filter (keptLine cc) = inputLines cc ls := by
  unfold inputLines
  apply List.filter_congr
  intro l hl
  unfold keptLine
  cases cc with
  | false => rfl
  | true =>
    simp only [Bool.true_and, Bool.not_true, Bool.false_or]
    rw [Bool.eq_iff_iff]
    simp only [Bool.not_eq_true', beq_eq_false_iff_ne, ne_eq, skipBlanks_nil_iff, List.any_eq_true, Bool.and_eq_true, bne_iff_ne]
    constructor
    · intro h1
      refine Classical.byContradiction fun h2 => h1 fun c hc => ?_
      by_cases h3 : c = ' ' ∨ c = '\t'
      · rcases h3 with rfl | rfl <;> decide
      · rw [not_or] at h3
        exact absurd ⟨c, hc, h3⟩ h2
    · rintro ⟨c, hc, h1, h2⟩ h3
      rcases h rfl l hl h3 c hc with h4 | h4
      · exact h1 h4
      · exact h2 h4

end PBat
