import Verif.Lemmas.TeaSyntax
import Verif.Props.C87
/-
C88: the language of the program TEA.
-/
namespace PBat
open Spec

/-! ### Outputs -/

/-- Plain characters. -/
def plains (s : List Char) : List DocTok := s.map .plain

/-- The output as text: emphasis between `_`, links followed by their target. -/
def textDeco : Deco where
  tok t := [t]
  inline
    | .emph ts => plains ['_'] ++ ts ++ plains ['_']
    | .link target text => text ++ plains [' ', '(', '<'] ++ target ++ plains ['>', ')']

/-- Outputs that leave the texts as they are. -/
def sameDeco : Deco where
  tok t := [t]
  inline
    | .emph ts => ts
    | .link _ text => text

theorem text_same {D : Deco} (h : ∀ t, D.tok t = [t]) (ts : List DocTok) : D.text ts = ts := by
  induction ts with
  | nil => rfl
  | cons t ts ih =>
    have : D.text (t :: ts) = D.tok t ++ D.text ts := rfl
    rw [this, ih, h]
    rfl

theorem decorates_text : Decorates teaTextNode textDeco where
  plain ts _ := by rw [text_same fun _ => rfl]; rfl
  textOk ts h := by rwa [text_same fun _ => rfl]
  space _ _ := rfl
  inline i _ := by
    cases i with
    | emph ts =>
      show '_' :: srcOf ts ++ ['_'] = _
      simp [textDeco, srcOf_append, plains, srcOf_cons, srcOf_nil, DocTok.src]
    | link a b =>
      show srcOf b ++ " (<".toList ++ srcOf a ++ ">)".toList = _
      simp [textDeco, srcOf_append, plains, srcOf_cons, srcOf_nil, DocTok.src]
  inlineOk i hi := by
    cases i with
    | emph ts => exact without_append.2 ⟨without_append.2 ⟨by decide, hi.1⟩, by decide⟩
    | link a b => exact without_append.2 ⟨without_append.2 ⟨without_append.2 ⟨hi.2.2.2.1, by decide⟩, hi.1⟩, by decide⟩

theorem decorates_same : Decorates id sameDeco where
  plain ts _ := by rw [text_same fun _ => rfl]; rfl
  textOk ts h := by rwa [text_same fun _ => rfl]
  space _ _ := rfl
  inline i _ := by cases i <;> rfl
  inlineOk i hi := by
    cases i with
    | emph ts => exact hi.1
    | link a b => exact hi.2.2.2.1

/-! ### Pages -/

/-- A page is read as what it was written for.  Partial: `C88_open_escaped`, `C88_code_escape`, `C88_heading_blank`, `C88_last_backslash`, `C88_escaped_line`. -/
theorem C88_page_partial {h : TeaNode → TeaNode} {D : Deco} (hD : Decorates h D) (d : DocPage) (hd : d.Ok) :
    ∃ p, teaPage h d.src = some p ∧ p.map teaView = itemsView h D 0 d.items := page_items hD d hd

/-- The parts of a paragraph together are its text: each blank space between words is one blank, all other characters are there, those escaped without what escapes. -/
theorem C88_parts (p : Option DocTok) (xs : List DocPiece) : ((shownPieces p xs).map TeaNode.content).flatten = showFrom p (xs.map DocPiece.toks).flatten := by
  induction xs generalizing p with
  | nil => rfl
  | cons x xs ih =>
    rw [shownPieces, List.map_append, List.flatten_append, ih, List.map_cons, List.flatten_cons, showFrom_append]
    congr 1
    split <;> rename_i hx
    · rw [List.isEmpty_iff] at hx; rw [hx]; rfl
    · simp

/-- What a page is, in blocks. -/
def docBlocks (d : DocPage) : List DocBlock :=
  (itemsView teaTextNode textDeco 0 d.items).map fun v => match v.1 with
    | .heading => .heading v.2.2.2.1
    | .code => .code v.2.1 v.2.2.2.1
    | .par => .par v.2.1 (!v.2.2.1) (v.2.2.2.2.map TeaNode.content)

/-- The page is shown as it was written for.  Partial: as `C88_page_partial` and `C87_page_partial`. -/
theorem C88_run_partial (d : DocPage) (hd : d.Ok) (hs : ∀ b ∈ docBlocks d, Showable b) :
    ∃ out, teaRun d.src = .ok (some out) ∧ PageLaid (docBlocks d) out := by
  obtain ⟨p, h1, h2⟩ := C88_page_partial decorates_text d hd
  have e : docBlocks d = p.map docOf := by
    unfold docBlocks
    rw [← h2, List.map_map]
    refine List.map_congr_left fun b _ => ?_
    obtain ⟨⟨k, l, n, c⟩, ns⟩ := b
    cases k <;> rfl
  unfold teaRun
  rw [h1]
  obtain ⟨out, h3, h4⟩ := C87_page_partial p (by
    intro b hb
    exact hs _ (e ▸ List.mem_map_of_mem hb))
  exact ⟨out, h3, e ▸ h4⟩

/-! ### Comments -/

/-- Lines that begin with `#` are left out. -/
theorem C88_comments (lines : List (List Char)) (h : ∀ l ∈ lines, l.head? ≠ some (Char.ofNat 0xFEFF)) :
    teaSource lines = (lines.filter fun l => l.head? != some '#').flatten := by
  unfold teaSource
  suffices hg : ∀ first, teaSource.go (Char.ofNat 0xFEFF) first lines = (lines.filter fun l => l.head? != some '#').flatten from hg true
  intro first
  induction lines generalizing first with
  | nil => rfl
  | cons l ls ih =>
    have ih' := ih (fun x hx => h x (by simp [hx])) first
    rw [teaSource.go, if_neg (fun g => h l (by simp) g.1)]
    by_cases hl : l.head? = some '#'
    · rw [if_pos hl, List.filter_cons_of_neg (by simp [hl]), ih']
    · rw [if_neg hl, List.filter_cons_of_pos (by simpa using hl), List.flatten_cons, ih']

/-- So are they after the mark at the beginning. -/
theorem C88_comments_mark (l : List Char) (lines : List (List Char)) (h : ∀ x ∈ lines, x.head? ≠ some (Char.ofNat 0xFEFF)) :
    teaSource ((Char.ofNat 0xFEFF :: l) :: lines) = ((l :: lines).filter fun l => l.head? != some '#').flatten := by
  have h1 := C88_comments lines h
  unfold teaSource at h1 ⊢
  rw [teaSource.go, if_pos ⟨rfl, rfl⟩]
  have e : ∀ first ls, (∀ x ∈ ls, x.head? ≠ some (Char.ofNat 0xFEFF)) → teaSource.go (Char.ofNat 0xFEFF) first ls = teaSource.go (Char.ofNat 0xFEFF) true ls := by
    intro first ls hls
    induction ls with
    | nil => rfl
    | cons y ys ih =>
      have hy : ∀ b : Bool, ¬ (y.head? = some (Char.ofNat 0xFEFF) ∧ b = true) := fun b g => hls y (by simp) g.1
      rw [teaSource.go, teaSource.go, if_neg (hy _), if_neg (hy _), ih fun x hx => hls x (by simp [hx])]
  rw [e false lines h, h1]
  by_cases hl : l.head? = some '#'
  · rw [List.filter_cons_of_neg (by simp [hl])]
    simp [hl]
  · rw [List.filter_cons_of_pos (by simpa using hl)]
    simp [hl]

/-! ### What goes wrong -/

theorem close_none (s : List Char) (h : ¬ HasPair '}' '}' s) : teaClose s = none := by
  induction s with
  | nil => rfl
  | cons c s ih =>
    have h1 : ¬ (c = '}' ∧ s.head? = some '}') := by rintro ⟨rfl, h1⟩; exact h (hasPair_head h1)
    rw [teaClose, if_neg h1, ih fun g => h (hasPair_cons g)]
    rfl

/-- VIOLATION: an escaped `{` before an emphasis is taken for the beginning of a title, and ends the program. -/
theorem C88_open_escaped (h : TeaNode → TeaNode) (ts es : List DocTok) (h1 : NotOpen (srcOf ts ++ ['\\', '{'])) (h2 : ¬ HasPair '}' '}' (srcOf es ++ ['}'])) :
    teaPage h (DocText.src ⟨ts ++ [.esc '{'], [(.emph es, [])]⟩) = none := by
  have e : DocText.src ⟨ts ++ [.esc '{'], [(.emph es, [])]⟩ = (srcOf ts ++ ['\\']) ++ '{' :: '{' :: (srcOf es ++ ['}']) := by
    simp [DocText.src, moreSrc, srcOf_append, srcOf_cons, srcOf_nil, DocTok.src, DocInline.src]
  have ho := open_heading (srcOf ts ++ ['\\']) (srcOf es ++ ['}']) (by simpa using h1)
  have hb : teaBlocks ((srcOf ts ++ ['\\']) ++ '{' :: '{' :: (srcOf es ++ ['}'])) = none := by
    rw [teaBlocks.eq_def]
    split
    · rename_i h; rw [ho] at h; cases h
    · rename_i h
      rw [ho] at h
      cases h
      split
      · rfl
      · rename_i h; rw [close_none _ h2] at h; cases h
    · rename_i h; rw [ho] at h; cases h
  unfold teaPage
  rw [e, hb]
  rfl

/-- VIOLATION: in code what escapes is shown. -/
theorem C88_code_escape (h : TeaNode → TeaNode) (a b : List Char) (x : Char) (ha : BracePairs a) (hb : BracePairs b) (hx : docSpace x = false) :
    ∃ p, teaPage h (DocPage.src ⟨⟨[], [], none⟩, [(.code (a ++ '\\' :: x :: b), ⟨[], [], none⟩)]⟩) = some p ∧
      p = [(⟨.code, 0, false, noTabs a ++ '\\' :: x :: noTabs b⟩, [])] := by
  have hbal : ∀ {a b : List Char}, BracePairs a → BracePairs b → BracePairs (a ++ b) := by
    intro a b ha hb
    induction ha with
    | nil => exact hb
    | char h1 h2 h3 _ ih => exact .char h1 h2 h3 ih
    | esc _ ih => exact .esc ih
    | @pair s t hs _ _ ih => rw [List.append_assoc, List.cons_append]; exact .pair hs ih
  have hc := hbal ha (BracePairs.esc (c := x) hb)
  have he := blocks_page [(DocSpecial.code (a ++ '\\' :: x :: b), (⟨[], [], none⟩ : DocRegion))]
    (.cons (.code hc ⟨x, by simp, hx⟩) ⟨⟨fun c hc => (by cases hc), fun c hc => (by cases hc), fun p hp => (by cases hp)⟩, by
      constructor
      all_goals
        rintro ⟨x, y, e⟩
        have := congrArg List.length e
        simp [DocRegion.src, parsSrc, lastSrc] at this⟩ .nil) [] (by
      constructor
      all_goals
        rintro ⟨x, y, e⟩
        have := congrArg List.length e
        simp at this
        omega)
  refine ⟨_, ?_, rfl⟩
  unfold teaPage
  rw [show DocPage.src ⟨⟨[], [], none⟩, [(.code (a ++ '\\' :: x :: b), ⟨[], [], none⟩)]⟩ =
    [] ++ pageMore [(.code (a ++ '\\' :: x :: b), ⟨[], [], none⟩)] from rfl, he]
  have hx' : x ≠ '\t' := by rintro rfl; cases hx
  have hn : noTabs (a ++ '\\' :: x :: b) = noTabs a ++ '\\' :: x :: noTabs b := by simp [noTabs, hx']
  have e1 : teaBreak [] = [[]] := break_none [] rfl
  have e2 : teaPurify ((.par, []) :: blocksMore [(.code (a ++ '\\' :: x :: b), ⟨[], [], none⟩)]) =
      [(.par, []), (.code, noTabs a ++ '\\' :: x :: noTabs b), (.par, [])] := by
    rw [purify_cons, blocksMore, purify_cons, blocksMore, purify_cons]
    simp only [DocRegion.src, parsSrc, lastSrc, hn]
    simp [e1, teaPurify]
  show (teaNonVoid (teaLevels false 0 (teaPurify _))).mapM _ = _
  rw [e2]
  have e3 := nonvoid_of (s := noTabs a ++ '\\' :: x :: noTabs b) ⟨'\\', by simp, rfl⟩
  have e4 : teaNonVoid (teaLevels false 0 [(.par, []), (.code, noTabs a ++ '\\' :: x :: noTabs b), (.par, [])]) = [⟨.code, 0, false, noTabs a ++ '\\' :: x :: noTabs b⟩] := by
    simp [teaNonVoid, teaLevels, teaLevel, e3]
  rw [e4]
  rfl

theorem sweepLoop_append (n g : Bool) (ts : List DocTok) (h : NoPlain '\\' ts) (s : List Char) :
    teaSweepLoop n g (srcOf ts ++ s) = ((teaSweepLoop n g (srcOf ts)).1 ++ (teaSweepLoop n (teaSweepLoop n g (srcOf ts)).2.1 s).1,
      (teaSweepLoop n (teaSweepLoop n g (srcOf ts)).2.1 s).2) := by
  induction ts generalizing g with
  | nil => rfl
  | cons t ts ih =>
    rw [without_cons] at h
    rw [srcOf_cons, List.append_assoc]
    cases t with
    | esc c =>
      show teaSweepLoop n g ('\\' :: c :: (srcOf ts ++ s)) = _
      rw [show DocTok.src (.esc c) ++ srcOf ts = '\\' :: c :: srcOf ts from rfl, teaSweepLoop, teaSweepLoop, ih _ h.2]
      rfl
    | plain c =>
      have hc : c ≠ '\\' := fun e => h.1 (by rw [e])
      have key : ∀ s, teaSweepLoop n g (c :: s) = if c = '\n' ∨ c = '\t' ∨ c = ' ' then
          if g then teaSweepLoop n true s else (' ' :: (teaSweepLoop n true s).1, (teaSweepLoop n true s).2)
          else (c :: (teaSweepLoop n false s).1, (teaSweepLoop n false s).2) := by
        intro s
        rw [teaSweepLoop.eq_def]
        split
        · rename_i h; cases h
        · rename_i h; injection h with h _; exact absurd h hc
        · rename_i c' s' _ h
          cases h
          rfl
      show teaSweepLoop n g (c :: (srcOf ts ++ s)) = _
      rw [show DocTok.src (.plain c) ++ srcOf ts = c :: srcOf ts from rfl, key, key, ih _ h.2, ih _ h.2]
      split
      · split <;> rfl
      · rfl

theorem sweepLoop_end (n g : Bool) (ts : List DocTok) (h : NoPlain '\\' ts) : (teaSweepLoop n g (srcOf ts)).2.2 = false := by
  induction ts generalizing g with
  | nil => rfl
  | cons t ts ih =>
    rw [without_cons] at h
    have := sweepLoop_append n g [t] (by rw [without_cons]; exact ⟨h.1, fun g => by (cases g)⟩) (srcOf ts)
    rw [srcOf_cons, srcOf_nil, List.append_nil] at this
    rw [srcOf_cons, this]
    exact ih _ h.2

/-- VIOLATION: in a title the blank after an escaped character that follows a blank is lost. -/
theorem C88_heading_blank (a b : List DocTok) (x : Char) (ha : NoPlain '\\' a) (hb : NoPlain '\\' b) :
    (teaSweep false true (srcOf (a ++ [.plain ' ', .esc x, .plain ' '] ++ b))).1 = (teaSweep false true (srcOf (a ++ [.plain ' ', .esc x] ++ b))).1 := by
  have key : ∀ (m : List DocTok), NoPlain '\\' m → (teaSweep false true (srcOf m)).1 = (teaSweepLoop false true (srcOf m)).1 := by
    intro m hm
    unfold teaSweep
    simp only [sweepLoop_end false true m hm]
    rfl
  have hw : ∀ m : List DocTok, (∀ t ∈ m, t ≠ .plain '\\') → NoPlain '\\' (a ++ m ++ b) := fun m hm =>
    without_append.2 ⟨without_append.2 ⟨ha, fun h => hm _ h rfl⟩, hb⟩
  rw [key _ (hw _ (by simp)), key _ (hw _ (by simp))]
  rw [List.append_assoc a, List.append_assoc a, srcOf_append a, srcOf_append a, sweepLoop_append _ _ _ ha, sweepLoop_append _ _ _ ha]
  show _ ++ _ = _ ++ _
  congr 1

/-- What is shown is not longer than what is written. -/
theorem show_length (p : Option DocTok) (ts : List DocTok) : (showFrom p ts).length ≤ (srcOf ts).length := by
  induction ts generalizing p with
  | nil => simp [showFrom]
  | cons t ts ih =>
    rw [showFrom, srcOf_cons, List.length_append, List.length_append]
    have := ih (some t)
    have h1 : (showTok p t).length ≤ t.src.length := by
      cases t with
      | esc c => simp [showTok, DocTok.src]
      | plain c => rw [showTok]; split <;> (try split) <;> simp [DocTok.src]
    omega

theorem blanked_length (s : List Char) : (teaBlanked s).length = s.length := by
  fun_induction teaBlanked s with
  | case1 => rfl
  | case2 => rfl
  | case3 d s ih => simp [ih]
  | case4 c s _ ih => simp [ih]

/-- VIOLATION: after a text that ends with a `\`, its last characters are shown again: as many as blanks and `\` were left out, and one more. -/
theorem C88_last_backslash (ts : List DocTok) (h : NoPlain '\\' ts) :
    ∃ extra, (teaSweep true true (srcOf ts ++ ['\\'])).1 = showFrom none ts ++ extra ∧ extra.length = (srcOf ts).length - (showFrom none ts).length + 1 := by
  have h1 := sweepLoop_append true true ts h ['\\']
  have h2 := sweepLoop_node none ts h
  rw [Option.all_none] at h2
  rw [h2] at h1
  simp only [teaSweepLoop, List.append_nil] at h1
  refine ⟨(teaBlanked (srcOf ts ++ ['\\'])).drop (showFrom none ts).length, ?_, ?_⟩
  · unfold teaSweep
    rw [h1]
    rfl
  · rw [List.length_drop, blanked_length, List.length_append]
    have := show_length none ts
    simp
    omega

/-- VIOLATION: an escaped end of line before another separates paragraphs as one that is not does. -/
theorem C88_escaped_line (a b : List Char) (h : ¬ HasGap (a ++ ['\\', '\n'])) : teaBreak (a ++ '\\' :: '\n' :: '\n' :: b) = (a ++ ['\\']) :: teaBreak b := by
  have := gap_found (a ++ ['\\']) [] b (by simpa using h) (fun x hx => by (cases hx))
  simp only [List.append_assoc, List.cons_append, List.nil_append, List.drop_succ_cons, List.drop_zero] at this
  rw [break_some _ _ _ this]

/-! ### Examples -/

/-- Whether two characters are beside each other. -/
def pairB (a b : Char) : List Char → Bool
  | [] => false
  | c :: s => (c == a && s.head? == some b) || pairB a b s

theorem not_hasPair {a b : Char} {s : List Char} (h : pairB a b s = false) : ¬ HasPair a b s := by
  rintro ⟨x, y, rfl⟩
  induction x with
  | nil => simp [pairB] at h
  | cons c x ih =>
    rw [List.cons_append, pairB, Bool.or_eq_false_iff] at h
    exact ih h.2

theorem not_hasGap {s : List Char} (h : (teaGap s).isNone = true) : ¬ HasGap s := by
  rintro ⟨a, b, c, rfl, hb⟩
  induction a with
  | nil =>
    rw [List.nil_append, List.cons_append, teaGap, if_pos ⟨rfl, by rw [dropWhile_teaBlanks hb]; rfl⟩] at h
    cases h
  | cons d a ih =>
    apply ih
    rw [List.cons_append, List.cons_append, teaGap] at h
    split at h
    · cases h
    · cases hg : teaGap (a ++ '\n' :: b ++ '\n' :: c) with
      | none => rfl
      | some x => rw [hg] at h; cases h

theorem balanced_plain {s : List Char} (h : ∀ c ∈ s, c ≠ '\\' ∧ c ≠ '{' ∧ c ≠ '}') : BracePairs s := by
  induction s with
  | nil => exact .nil
  | cons c s ih =>
    obtain ⟨h1, h2, h3⟩ := h c (by simp)
    exact .char h1 h2 h3 (ih fun d hd => h d (by simp [hd]))

/-- A paragraph with an emphasis and a link, and a character that is escaped. -/
def samplePar : DocPar := ⟨false, 0, ⟨plains "The command ".toList, [(.emph (plains "copy".toList), plains " or ".toList), (.link (plains "xcopy".toList) (plains "XCOPY".toList), plains "  makes\n\tcopies ".toList ++ [.esc '{'])]⟩⟩

def samplePage88 : DocPage :=
  ⟨⟨['\n'], [], none⟩,
   [(.heading (plains " Copy   files".toList), ⟨['\n', '\n', '\t'], [(samplePar, ['\n', ' ', '\n', '\t'])], some ⟨false, 2, ⟨plains " an item\n".toList, []⟩⟩⟩),
    (.code (plains "copy {a} b".toList |> srcOf), ⟨['\n', '\n'], [(⟨true, 1, ⟨plains "no mark".toList, []⟩⟩, ['\n', '\n', '\n'])], none⟩)]⟩

example : samplePar.src = "The command {copy} or {xcopy|XCOPY}  makes\n\tcopies \\{".toList := by decide +kernel

example : samplePage88.src = "\n{{ Copy   files}}\n\n\tThe command {copy} or {xcopy|XCOPY}  makes\n\tcopies \\{\n \n\t-- an item\n${copy {a} b}\n\n@-no mark\n\n\n".toList := by decide +kernel

example : (shownPieces none (pieces teaTextNode textDeco samplePar.shown)).map TeaNode.content = ["The command ".toList, "_copy_".toList, " or ".toList, "XCOPY (<xcopy>)".toList, " makes copies {".toList] := by
  decide +kernel

theorem samplePar_ok : samplePar.Ok where
  text := ⟨by decide +kernel, by
    intro x hx
    simp only [samplePar, List.mem_cons, List.not_mem_nil, or_false] at hx
    rcases hx with rfl | rfl
    · exact ⟨⟨by decide +kernel, by decide +kernel, by decide +kernel⟩, by decide +kernel⟩
    · exact ⟨⟨by decide +kernel, by decide +kernel, by decide +kernel, by decide +kernel, by decide +kernel⟩, by decide +kernel⟩⟩
  solid := by decide +kernel
  noDash := by decide +kernel
  noAt := by decide +kernel
  some := by decide +kernel

theorem sample88_ok : samplePage88.Ok where
  start := ⟨⟨by decide +kernel, fun x hx => (by cases hx), fun p hp => (by cases hp)⟩, not_hasPair (by decide +kernel), not_hasPair (by decide +kernel)⟩
  more := by
    refine .cons (.heading (by decide +kernel) (not_hasPair (by decide +kernel)) ?_ ⟨'C', by decide +kernel, by decide +kernel⟩) ⟨⟨by decide +kernel, ?_, ?_⟩, not_hasPair (by decide +kernel), not_hasPair (by decide +kernel)⟩
      (.cons (.code ?_ ⟨'c', by decide +kernel, by decide +kernel⟩) ⟨⟨by decide +kernel, ?_, fun p hp => (by cases hp)⟩, not_hasPair (by decide +kernel), not_hasPair (by decide +kernel)⟩ .nil)
    · intro a c b x e
      have : DocTok.esc c ∈ plains " Copy   files".toList := by rw [e]; simp
      simp [plains] at this
    · intro x hx
      simp only [List.mem_cons, List.not_mem_nil, or_false] at hx
      subst hx
      exact ⟨samplePar_ok, .mk (b := [' ']) (w := ['\t']) (by decide) (by decide), not_hasGap (by decide +kernel)⟩
    · intro p hp
      cases hp
      exact ⟨⟨⟨by decide +kernel, fun x hx => (by cases hx)⟩, by decide +kernel, by decide +kernel, by decide +kernel, by decide +kernel⟩, not_hasGap (by decide +kernel)⟩
    · have e : srcOf (plains "copy {a} b".toList) = "copy ".toList ++ ('{' :: ['a'] ++ '}' :: [' ', 'b']) := by decide +kernel
      show BracePairs (srcOf (plains "copy {a} b".toList))
      rw [e]
      exact .char (by decide) (by decide) (by decide) (.char (by decide) (by decide) (by decide) (.char (by decide) (by decide) (by decide) (.char (by decide) (by decide) (by decide)
        (.char (by decide) (by decide) (by decide) (.pair (balanced_plain (by decide)) (balanced_plain (by decide)))))))
    · intro x hx
      simp only [List.mem_cons, List.not_mem_nil, or_false] at hx
      subst hx
      exact ⟨⟨⟨by decide +kernel, fun x hx => (by cases hx)⟩, by decide +kernel, by decide +kernel, by decide +kernel, fun _ => ⟨'n', by decide +kernel, by decide +kernel⟩⟩,
        .mk (b := []) (w := ['\n']) (by decide) (by decide), not_hasGap (by decide +kernel)⟩

/-- The item comes after its mark; the code in it is of its level. -/
example : (itemsView teaTextNode textDeco 0 samplePage88.items).map (fun v => (v.1, v.2.1, v.2.2.1)) =
    [(.heading, 0, false), (.par, 0, false), (.par, 2, false), (.code, 2, false), (.par, 1, true)] := by decide +kernel

example : ∀ b ∈ docBlocks samplePage88, Showable b := by
  have e : docBlocks samplePage88 = [.heading "Copy files".toList,
      .par 0 true ["The command ".toList, "_copy_".toList, " or ".toList, "XCOPY (<xcopy>)".toList, " makes copies {".toList],
      .par 2 true ["- an item ".toList], .code 2 "copy {a} b".toList, .par 1 false ["no mark".toList]] := by decide +kernel
  rw [e]
  intro b hb
  simp only [List.mem_cons, List.not_mem_nil, or_false] at hb
  rcases hb with rfl | rfl | rfl | rfl | rfl
  · exact .heading (by decide +kernel) (shortB_short (k := 0) (by decide +kernel)).2
  · exact .par (by decide) (by decide) ⟨by decide +kernel, by decide +kernel, by decide +kernel⟩ (shortB_short (k := 0) (by decide +kernel)).2
  · exact .par (by decide) (by decide) ⟨by decide +kernel, by decide +kernel, by decide +kernel⟩ (shortB_short (k := 0) (by decide +kernel)).2
  · exact .code (by decide) (by decide +kernel) (shortB_short (k := 0) (by decide +kernel)).2
  · exact .par (by decide) (by decide) ⟨by decide +kernel, by decide +kernel, by decide +kernel⟩ (shortB_short (k := 0) (by decide +kernel)).2

/-- `a \{{b}` -/
example : teaPage teaTextNode "a \\{{b}".toList = none := by
  have := C88_open_escaped teaTextNode (plains "a ".toList) (plains ['b']) ⟨not_hasPair (by decide +kernel), not_hasPair (by decide +kernel)⟩ (not_hasPair (by decide +kernel))
  have e : DocText.src ⟨plains "a ".toList ++ [.esc '{'], [(.emph (plains ['b']), [])]⟩ = "a \\{{b}".toList := by decide +kernel
  rwa [e] at this

/-- `{{a \+ b}}` -/
example : (teaSweep false true "a \\+ b".toList).1 = "a +b".toList := by decide +kernel

/-- `a  b\` -/
example : (teaSweep true true "a  b\\".toList).1 = "a bb\\".toList := by decide +kernel

example : teaSource ["# no\n".toList, "yes\n".toList] = "yes\n".toList := by decide +kernel

end PBat
