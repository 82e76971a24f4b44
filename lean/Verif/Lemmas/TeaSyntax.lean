import Verif.Model.Tea
import Verif.Spec.TeaSyntax
/-
Lemmas on the language of the program TEA.
-/
namespace PBat
open Spec

/-! ### Characters -/

theorem srcOf_nil : srcOf [] = [] := rfl

theorem srcOf_cons (t : DocTok) (ts : List DocTok) : srcOf (t :: ts) = t.src ++ srcOf ts := by simp [srcOf]

theorem srcOf_append (a b : List DocTok) : srcOf (a ++ b) = srcOf a ++ srcOf b := by simp [srcOf]

theorem srcOf_plain (w : List Char) : srcOf (w.map .plain) = w := by
  induction w with
  | nil => rfl
  | cons c w ih => rw [List.map_cons, srcOf_cons, ih]; rfl

theorem without_cons {c : Char} {t : DocTok} {ts : List DocTok} : NoPlain c (t :: ts) ↔ t ≠ .plain c ∧ NoPlain c ts := by
  unfold NoPlain
  rw [List.mem_cons, not_or]
  exact ⟨fun h => ⟨fun e => h.1 e.symm, h.2⟩, fun h => ⟨fun e => h.1 e.symm, h.2⟩⟩

theorem without_append {c : Char} {a b : List DocTok} : NoPlain c (a ++ b) ↔ NoPlain c a ∧ NoPlain c b := by
  unfold NoPlain
  rw [List.mem_append, not_or]

/-- The first delimiter is the one after the text. -/
theorem seek_found (d : Char) (hd : d ≠ '\\') (ts : List DocTok) (rest : List Char) (h1 : NoPlain '\\' ts) (h2 : NoPlain d ts) :
    teaSeek d (srcOf ts ++ d :: rest) = some (srcOf ts, rest) := by
  induction ts with
  | nil =>
    show teaSeek d (d :: rest) = _
    rw [teaSeek.eq_def]
    split
    · rename_i h; cases h
    · rename_i h; injection h with h _; exact absurd h hd
    · rename_i c s _ h
      cases h
      rw [if_pos rfl]
      rfl
  | cons t ts ih =>
    rw [without_cons] at h1 h2
    rw [srcOf_cons, List.append_assoc]
    cases t with
    | plain c =>
      show teaSeek d (c :: (srcOf ts ++ d :: rest)) = _
      have hc : c ≠ '\\' := fun e => h1.1 (by rw [e])
      have hcd : c ≠ d := fun e => h2.1 (by rw [e])
      rw [teaSeek.eq_def]
      split
      · rename_i h; cases h
      · rename_i h; injection h with h _; exact absurd h hc
      · rename_i c' s' _ h
        cases h
        rw [if_neg hcd, ih h1.2 h2.2]
        rfl
    | esc c =>
      show teaSeek d ('\\' :: c :: (srcOf ts ++ d :: rest)) = _
      rw [teaSeek, ih h1.2 h2.2]
      rfl

theorem seek_none (d : Char) (ts : List DocTok) (h1 : NoPlain '\\' ts) (h2 : NoPlain d ts) : teaSeek d (srcOf ts) = none := by
  induction ts with
  | nil => rfl
  | cons t ts ih =>
    rw [without_cons] at h1 h2
    rw [srcOf_cons]
    cases t with
    | plain c =>
      show teaSeek d (c :: srcOf ts) = _
      have hc : c ≠ '\\' := fun e => h1.1 (by rw [e])
      have hcd : c ≠ d := fun e => h2.1 (by rw [e])
      rw [teaSeek.eq_def]
      split
      · rfl
      · rename_i h; injection h with h _; exact absurd h hc
      · rename_i c' s' _ h
        cases h
        rw [if_neg hcd, ih h1.2 h2.2]
        rfl
    | esc c =>
      show teaSeek d ('\\' :: c :: srcOf ts) = _
      rw [teaSeek, ih h1.2 h2.2]
      rfl

/-! ### Blanks -/

theorem teaSpace_eq (c : Char) : teaSpace c = docSpace c := rfl

theorem space_iff (c : Char) : (c = '\n' ∨ c = '\t' ∨ c = ' ') ↔ docSpace c = true := by
  simp only [docSpace, Bool.or_eq_true, beq_iff_eq]
  constructor
  · rintro (h | h | h) <;> simp [h]
  · rintro ((h | h) | h) <;> simp [h]

/-- What is shown depends only on whether a blank was before. -/
theorem showFrom_prev {p q : Option DocTok} (h : p.all DocTok.blank = q.all DocTok.blank) (ts : List DocTok) : showFrom p ts = showFrom q ts := by
  cases ts with
  | nil => rfl
  | cons t ts =>
    rw [showFrom, showFrom]
    congr 1
    cases t with
    | esc c => rfl
    | plain c => rw [showTok, showTok, h]

theorem showFrom_append (p : Option DocTok) (a b : List DocTok) : showFrom p (a ++ b) = showFrom p a ++ showFrom (a.getLast?.or p) b := by
  induction a generalizing p with
  | nil => rfl
  | cons t a ih =>
    rw [List.cons_append, showFrom, showFrom, ih, List.append_assoc]
    congr 2
    cases a with
    | nil => rfl
    | cons u a => simp [List.getLast?_cons]

/-- A last escaped character that says it was not a blank. -/
theorem sweepLoop_node (p : Option DocTok) (ts : List DocTok) (h : NoPlain '\\' ts) :
    teaSweepLoop true (p.all DocTok.blank) (srcOf ts) = (showFrom p ts, (ts.getLast?.or p).all DocTok.blank, false) := by
  induction ts generalizing p with
  | nil => rfl
  | cons t ts ih =>
    rw [without_cons] at h
    have hl : (t :: ts).getLast?.or p = ts.getLast?.or (some t) := by
      cases ts with
      | nil => rfl
      | cons u ts => simp [List.getLast?_cons]
    rw [srcOf_cons, hl]
    have ih' := ih (some t) h.2
    cases t with
    | esc c =>
      show teaSweepLoop true _ ('\\' :: c :: srcOf ts) = _
      rw [teaSweepLoop]
      rw [Option.all_some, DocTok.blank] at ih'
      simp only [if_true, ih']
      rfl
    | plain c =>
      have hc : c ≠ '\\' := fun e => h.1 (by rw [e])
      show teaSweepLoop true _ (c :: srcOf ts) = _
      rw [Option.all_some, DocTok.blank] at ih'
      rw [teaSweepLoop.eq_def]
      split
      · rename_i h; cases h
      · rename_i h; injection h with h _; exact absurd h hc
      · rename_i c' s' _ h
        cases h
        by_cases hb : docSpace c = true
        · rw [if_pos ((space_iff c).2 hb)]
          rw [hb] at ih'
          rw [ih', showFrom, showTok, if_pos hb]
          split <;> rename_i hp <;> simp [hp]
        · rw [if_neg fun e => hb ((space_iff c).1 e)]
          rw [Bool.eq_false_iff.2 hb] at ih'
          rw [ih', showFrom, showTok, if_neg hb]
          rfl

theorem sweep_node (p : Option DocTok) (ts : List DocTok) (h : NoPlain '\\' ts) :
    teaSweep true (p.all DocTok.blank) (srcOf ts) = (showFrom p ts, (ts.getLast?.or p).all DocTok.blank) := by
  unfold teaSweep
  rw [sweepLoop_node p ts h]
  rfl

/-- In a title no escaped character is before a blank. -/
theorem sweepLoop_heading (p : Option DocTok) (g : Bool) (ts : List DocTok) (h : NoPlain '\\' ts) (hg : g = p.all DocTok.blank ∨ ts.head?.all (fun t => !t.blank))
    (he : ∀ a c b x, ts = a ++ .esc c :: .plain x :: b → docSpace x = false) :
    (teaSweepLoop false g (srcOf ts)).1 = showFrom p ts ∧ (teaSweepLoop false g (srcOf ts)).2.2 = false := by
  induction ts generalizing p g with
  | nil => exact ⟨rfl, rfl⟩
  | cons t ts ih =>
    rw [without_cons] at h
    rw [srcOf_cons]
    have he' : ∀ a c b x, ts = a ++ .esc c :: .plain x :: b → docSpace x = false := fun a c b x e => he (t :: a) c b x (by rw [e]; rfl)
    cases t with
    | esc c =>
      show (teaSweepLoop false g ('\\' :: c :: srcOf ts)).1 = _ ∧ (teaSweepLoop false g ('\\' :: c :: srcOf ts)).2.2 = false
      rw [teaSweepLoop]
      have ih' := ih (some (.esc c)) g h.2 (.inr ?_) he'
      · refine ⟨?_, ih'.2⟩
        show c :: (teaSweepLoop false g (srcOf ts)).1 = _
        rw [ih'.1]
        rfl
      · cases ts with
        | nil => rfl
        | cons u ts =>
          cases u with
          | esc d => rfl
          | plain d => simp [DocTok.blank, he [] c ts d rfl]
    | plain c =>
      have hc : c ≠ '\\' := fun e => h.1 (by rw [e])
      have key : teaSweepLoop false g (c :: srcOf ts) = if c = '\n' ∨ c = '\t' ∨ c = ' ' then
          if g then teaSweepLoop false true (srcOf ts) else (' ' :: (teaSweepLoop false true (srcOf ts)).1, (teaSweepLoop false true (srcOf ts)).2)
          else (c :: (teaSweepLoop false false (srcOf ts)).1, (teaSweepLoop false false (srcOf ts)).2) := by
        rw [teaSweepLoop.eq_def]
        split
        · rename_i h; cases h
        · rename_i h; injection h with h _; exact absurd h hc
        · rename_i c' s' _ h
          cases h
          rfl
      show (teaSweepLoop false g (c :: srcOf ts)).1 = _ ∧ (teaSweepLoop false g (c :: srcOf ts)).2.2 = false
      rw [key]
      by_cases hb : docSpace c = true
      · rw [if_pos ((space_iff c).2 hb)]
        have ih' := ih (some (.plain c)) true h.2 (.inl (by simp [DocTok.blank, hb])) he'
        have hg' : g = p.all DocTok.blank := by
          rcases hg with hg | hg
          · exact hg
          · simp [DocTok.blank, hb] at hg
        rw [showFrom, showTok, if_pos hb, ← hg']
        cases g with
        | true => exact ih'
        | false => exact ⟨by show ' ' :: _ = _; rw [ih'.1]; rfl, ih'.2⟩
      · rw [if_neg fun e => hb ((space_iff c).1 e)]
        have ih' := ih (some (.plain c)) false h.2 (.inl (by simp [DocTok.blank, hb])) he'
        rw [showFrom, showTok, if_neg hb]
        exact ⟨by show c :: _ = _; rw [ih'.1]; rfl, ih'.2⟩

theorem sweep_heading (ts : List DocTok) (h : NoPlain '\\' ts) (he : ∀ a c b x, ts = a ++ .esc c :: .plain x :: b → docSpace x = false) :
    (teaSweep false true (srcOf ts)).1 = showFrom none ts := by
  obtain ⟨h1, h2⟩ := sweepLoop_heading none true ts h (.inl rfl) he
  unfold teaSweep
  simp only [h2]
  exact h1

/-! ### The parts of a paragraph -/

/-- What a kind of output makes of texts: of each character, and of what is in braces. -/
structure Deco where
  tok : DocTok → List DocTok
  inline : DocInline → List DocTok

def Deco.text (D : Deco) (ts : List DocTok) : List DocTok := (ts.map D.tok).flatten

theorem Deco.text_append (D : Deco) (a b : List DocTok) : D.text (a ++ b) = D.text a ++ D.text b := by simp [Deco.text]

/-- The part that is in braces. -/
def inlineNode : DocInline → TeaNode
  | .emph ts => ⟨.emph, srcOf ts, []⟩
  | .link target text => ⟨.link, srcOf text, srcOf target⟩

/-- The handler of an output makes of texts what is said. -/
structure Decorates (h : TeaNode → TeaNode) (D : Deco) : Prop where
  plain : ∀ ts, NoPlain '\\' ts → h ⟨.plain, srcOf ts, []⟩ = ⟨.plain, srcOf (D.text ts), []⟩
  textOk : ∀ ts, NoPlain '\\' ts → NoPlain '\\' (D.text ts)
  space : ∀ c, docSpace c = true → D.tok (.plain c) = [.plain c]
  inline : ∀ i, i.Ok → (h (inlineNode i)).content = srcOf (D.inline i)
  inlineOk : ∀ i, i.Ok → NoPlain '\\' (D.inline i)

/-- A part: what the handler says it is, and the text. -/
structure DocPiece where
  node : TeaNode
  toks : List DocTok

def piecesMore (h : TeaNode → TeaNode) (D : Deco) : List (DocInline × List DocTok) → List DocPiece
  | [] => []
  | x :: xs => ⟨h (inlineNode x.1), D.inline x.1⟩ :: ⟨h ⟨.plain, srcOf x.2, []⟩, D.text x.2⟩ :: piecesMore h D xs

def pieces (h : TeaNode → TeaNode) (D : Deco) (t : DocText) : List DocPiece := ⟨h ⟨.plain, srcOf t.first, []⟩, D.text t.first⟩ :: piecesMore h D t.more

/-- What is shown of the parts, without those of which nothing is. -/
def shownPieces (p : Option DocTok) : List DocPiece → List TeaNode
  | [] => []
  | x :: xs => (if (showFrom p x.toks).isEmpty then [] else [{ x.node with content := showFrom p x.toks }]) ++ shownPieces (x.toks.getLast?.or p) xs

theorem shownPieces_prev {p q : Option DocTok} (h : p.all DocTok.blank = q.all DocTok.blank) (xs : List DocPiece) : shownPieces p xs = shownPieces q xs := by
  induction xs generalizing p q with
  | nil => rfl
  | cons x xs ih =>
    rw [shownPieces, shownPieces, showFrom_prev h, ih (p := x.toks.getLast?.or p) (q := x.toks.getLast?.or q)]
    cases x.toks.getLast? with
    | none => exact h
    | some t => rfl

theorem purify_pieces (p : Option DocTok) (xs : List DocPiece) (h : ∀ x ∈ xs, x.node.content = srcOf x.toks ∧ NoPlain '\\' x.toks) :
    ((teaPurifyNodes (p.all DocTok.blank) (xs.map DocPiece.node)).filter fun n => !n.content.isEmpty) = shownPieces p xs := by
  induction xs generalizing p with
  | nil => rfl
  | cons x xs ih =>
    have hx := h x (by simp)
    rw [List.map_cons, teaPurifyNodes, hx.1, sweep_node p x.toks hx.2, shownPieces, ← ih _ fun y hy => h y (by simp [hy]), List.filter_cons]
    split <;> rename_i hf <;> simp at hf <;> simp [hf]

theorem inline_eq (i : DocInline) (hi : i.Ok) (rest : List Char) :
    ∃ b, teaSeek '}' (i.src.drop 1 ++ rest) = some (b, rest) ∧ teaInline b = inlineNode i := by
  cases i with
  | emph ts =>
    refine ⟨srcOf ts, ?_, ?_⟩
    · rw [show (DocInline.emph ts).src.drop 1 ++ rest = srcOf ts ++ '}' :: rest by simp [DocInline.src]]
      exact seek_found '}' (by decide) ts rest hi.1 hi.2.1
    · unfold teaInline
      rw [seek_none '|' ts hi.1 hi.2.2]
      rfl
  | link a b =>
    obtain ⟨h1, h2, h3, h4, h5⟩ := hi
    have e : srcOf a ++ '|' :: srcOf b = srcOf (a ++ .plain '|' :: b) := by rw [srcOf_append, srcOf_cons]; rfl
    refine ⟨srcOf a ++ '|' :: srcOf b, ?_, ?_⟩
    · rw [show (DocInline.link a b).src.drop 1 ++ rest = (srcOf a ++ '|' :: srcOf b) ++ '}' :: rest by simp [DocInline.src], e]
      refine seek_found '}' (by decide) _ rest ?_ ?_
      · rw [without_append, without_cons]; exact ⟨h1, by simp, h4⟩
      · rw [without_append, without_cons]; exact ⟨h2, by simp, h5⟩
    · unfold teaInline
      rw [seek_found '|' (by decide) a (srcOf b) h1 h3]
      rfl

theorem nodes_text (h : TeaNode → TeaNode) (D : Deco) (ts : List DocTok) (more : List (DocInline × List DocTok)) (h1 : NoPlain '\\' ts) (h2 : NoPlain '{' ts)
    (hm : ∀ x ∈ more, x.1.Ok ∧ NoPlain '\\' x.2 ∧ NoPlain '{' x.2) :
    teaNodes h (srcOf ts ++ moreSrc more) = some (h ⟨.plain, srcOf ts, []⟩ :: (piecesMore h D more).map DocPiece.node) := by
  induction more generalizing ts with
  | nil =>
    rw [moreSrc, List.append_nil, teaNodes.eq_def]
    split
    · rfl
    · rename_i he; rw [seek_none '{' ts h1 h2] at he; cases he
  | cons x xs ih =>
    have hx := hm x (by simp)
    obtain ⟨b, hb1, hb2⟩ := inline_eq x.1 hx.1 (srcOf x.2 ++ moreSrc xs)
    have hsrc : x.1.src = '{' :: x.1.src.drop 1 := by cases x.1 <;> rfl
    have e : srcOf ts ++ moreSrc (x :: xs) = srcOf ts ++ '{' :: (x.1.src.drop 1 ++ (srcOf x.2 ++ moreSrc xs)) := by
      rw [moreSrc, List.append_assoc, hsrc, List.cons_append, List.drop_succ_cons, List.drop_zero]
    have e1 : teaSeek '{' (srcOf ts ++ moreSrc (x :: xs)) = some (srcOf ts, x.1.src.drop 1 ++ (srcOf x.2 ++ moreSrc xs)) := by
      rw [e]
      exact seek_found '{' (by decide) ts _ h1 h2
    rw [teaNodes.eq_def]
    split
    · rename_i he; rw [e1] at he; cases he
    · rename_i pre rest he
      rw [e1] at he
      cases he
      split
      · rename_i he; rw [hb1] at he; cases he
      · rename_i b' rest' he
        rw [hb1] at he
        cases he
        rw [ih x.2 hx.2.1 hx.2.2 fun y hy => hm y (by simp [hy]), hb2]
        rfl

theorem piecesMore_ok {h : TeaNode → TeaNode} {D : Deco} (hD : Decorates h D) (more : List (DocInline × List DocTok))
    (hm : ∀ x ∈ more, x.1.Ok ∧ NoPlain '\\' x.2 ∧ NoPlain '{' x.2) : ∀ x ∈ piecesMore h D more, x.node.content = srcOf x.toks ∧ NoPlain '\\' x.toks := by
  induction more with
  | nil => intro x hx; cases hx
  | cons y ys ih =>
    have hy := hm y (by simp)
    intro x hx
    rw [piecesMore, List.mem_cons, List.mem_cons] at hx
    rcases hx with rfl | rfl | hx
    · exact ⟨hD.inline _ hy.1, hD.inlineOk _ hy.1⟩
    · exact ⟨by rw [hD.plain _ hy.2.1], hD.textOk _ hy.2.1⟩
    · exact ih (fun z hz => hm z (by simp [hz])) x hx

theorem deco_space {h : TeaNode → TeaNode} {D : Deco} (hD : Decorates h D) (w : List Char) (hw : ∀ c ∈ w, docSpace c = true) :
    D.text (w.map .plain) = w.map .plain := by
  induction w with
  | nil => rfl
  | cons c w ih =>
    have : D.text ((c :: w).map .plain) = D.tok (.plain c) ++ D.text (w.map .plain) := rfl
    rw [this, ih fun d hd => hw d (by simp [hd]), hD.space c (hw c (by simp))]
    rfl

theorem show_spaces (p : Option DocTok) (hp : p.all DocTok.blank = true) (w : List Char) (hw : ∀ c ∈ w, docSpace c = true) :
    showFrom p (w.map .plain) = [] ∧ (((w.map DocTok.plain).getLast?.or p).all DocTok.blank) = true := by
  induction w generalizing p with
  | nil => exact ⟨rfl, hp⟩
  | cons c w ih =>
    have hc := hw c (by simp)
    obtain ⟨h1, h2⟩ := ih (some (.plain c)) hc fun d hd => hw d (by simp [hd])
    refine ⟨?_, ?_⟩
    · rw [List.map_cons, showFrom, h1, showTok, if_pos hc, if_pos hp]
      rfl
    · cases w with
      | nil => exact hc
      | cons d w => simpa [List.getLast?_cons] using h2

theorem not_space_backslash : docSpace '\\' = false := rfl

theorem without_spaces {w : List Char} (hw : ∀ c ∈ w, docSpace c = true) (d : Char) (hd : docSpace d = false) : NoPlain d (w.map .plain) := by
  intro h
  obtain ⟨c, hc, e⟩ := List.mem_map.1 h
  cases e
  rw [hw d hc] at hd
  cases hd

/-- The parts of a paragraph, whatever blanks are before. -/
theorem paragraph_text {h : TeaNode → TeaNode} {D : Deco} (hD : Decorates h D) (w : List Char) (hw : ∀ c ∈ w, docSpace c = true) (t : DocText) (ht : t.Ok) :
    teaParagraph h (w ++ t.src) = some (shownPieces none (pieces h D t)) := by
  have h1 : NoPlain '\\' (w.map .plain ++ t.first) := without_append.2 ⟨without_spaces hw _ rfl, ht.first.1⟩
  have h2 : NoPlain '{' (w.map .plain ++ t.first) := without_append.2 ⟨without_spaces hw _ rfl, ht.first.2⟩
  have e : w ++ t.src = srcOf (w.map .plain ++ t.first) ++ moreSrc t.more := by
    rw [srcOf_append, srcOf_plain, DocText.src, List.append_assoc]
  unfold teaParagraph
  rw [e, nodes_text h D _ _ h1 h2 ht.more, Option.map_some]
  congr 1
  have := purify_pieces none (⟨h ⟨.plain, srcOf (w.map .plain ++ t.first), []⟩, D.text (w.map .plain ++ t.first)⟩ :: piecesMore h D t.more) (by
    intro x hx
    rw [List.mem_cons] at hx
    rcases hx with rfl | hx
    · exact ⟨by rw [hD.plain _ h1], hD.textOk _ h1⟩
    · exact piecesMore_ok hD _ ht.more x hx)
  rw [Option.all_none] at this
  rw [List.map_cons] at this
  rw [this, pieces, shownPieces, shownPieces, D.text_append, deco_space hD w hw, showFrom_append]
  obtain ⟨h3, h4⟩ := show_spaces none rfl w hw
  have h5 : showFrom ((w.map DocTok.plain).getLast?.or none) (D.text t.first) = showFrom none (D.text t.first) := showFrom_prev (by rw [h4]; rfl) _
  have h6 : shownPieces ((w.map DocTok.plain ++ D.text t.first).getLast?.or none) (piecesMore h D t.more) = shownPieces ((D.text t.first).getLast?.or none) (piecesMore h D t.more) := by
    apply shownPieces_prev
    rw [List.getLast?_append]
    cases (D.text t.first).getLast? with
    | some u => rfl
    | none => exact h4
  rw [h3, h5, h6, List.nil_append, hD.plain _ h1, hD.plain _ ht.first.1]

/-! ### Paragraphs -/

theorem blank_iff (x : Char) : teaBlank x = true ↔ (x = ' ' ∨ x = '\t') := by simp [teaBlank]

theorem dropWhile_teaBlanks {b : List Char} (hb : ∀ x ∈ b, x = ' ' ∨ x = '\t') (s : List Char) : (b ++ s).dropWhile teaBlank = s.dropWhile teaBlank := by
  induction b with
  | nil => rfl
  | cons x b ih =>
    rw [List.cons_append, List.dropWhile_cons_of_pos ((blank_iff x).2 (hb x (by simp))), ih fun y hy => hb y (by simp [hy])]

theorem mem_takeWhile_holds {f : Char → Bool} {s : List Char} {x : Char} (h : x ∈ s.takeWhile f) : f x = true := by
  induction s with
  | nil => cases h
  | cons c s ih =>
    rw [List.takeWhile_cons] at h
    split at h
    · rename_i hc
      rw [List.mem_cons] at h
      rcases h with rfl | h
      · exact hc
      · exact ih h
    · cases h

/-- An empty line is an end of line before blanks and another one. -/
theorem hasGap_of_drop {s t : List Char} (h : (s.dropWhile teaBlank).head? = some '\n') : HasGap ('\n' :: s ++ t) := by
  have e := List.takeWhile_append_dropWhile (p := teaBlank) (l := s)
  cases hd : s.dropWhile teaBlank with
  | nil => rw [hd] at h; cases h
  | cons c r =>
    rw [hd] at h e
    cases h
    refine ⟨[], s.takeWhile teaBlank, r ++ t, ?_, fun x hx => (blank_iff x).1 ?_⟩
    · conv => lhs; rw [← e]
      simp
    · exact mem_takeWhile_holds hx

theorem hasGap_cons {c : Char} {s : List Char} (h : HasGap s) : HasGap (c :: s) := by
  obtain ⟨a, b, d, e, h⟩ := h
  exact ⟨c :: a, b, d, by rw [e]; rfl, h⟩

theorem gap_none (s : List Char) (h : ¬ HasGap s) : teaGap s = none := by
  induction s with
  | nil => rfl
  | cons c s ih =>
    have hx : ¬ (c = '\n' ∧ (s.dropWhile teaBlank).head? = some '\n') := by
      rintro ⟨rfl, h1⟩
      have := hasGap_of_drop (t := []) h1
      rw [List.append_nil] at this
      exact h this
    rw [teaGap, if_neg hx, ih fun h1 => h (hasGap_cons h1)]
    rfl

theorem gap_found (p b w : List Char) (hp : ¬ HasGap (p ++ ['\n'])) (hb : ∀ x ∈ b, x = ' ' ∨ x = '\t') :
    teaGap (p ++ ('\n' :: b ++ '\n' :: w)) = some (p, (b ++ '\n' :: w).drop 1) := by
  induction p with
  | nil =>
    show teaGap ('\n' :: (b ++ '\n' :: w)) = _
    rw [teaGap, if_pos ⟨rfl, by rw [dropWhile_teaBlanks hb]; rfl⟩]
  | cons c p ih =>
    have hx : ¬ (c = '\n' ∧ ((p ++ ('\n' :: b ++ '\n' :: w)).dropWhile teaBlank).head? = some '\n') := by
      rintro ⟨rfl, h1⟩
      apply hp
      by_cases h2 : p.all teaBlank
      · refine ⟨[], p, [], rfl, fun x hx => (blank_iff x).1 (List.all_eq_true.1 h2 x hx)⟩
      · have h3 : ∀ t, ((p ++ t).dropWhile teaBlank).head? = (p.dropWhile teaBlank).head? := by
          intro t
          rw [List.dropWhile_append]
          have : (p.dropWhile teaBlank).isEmpty = false := by
            rw [Bool.eq_false_iff]
            intro h4
            rw [List.isEmpty_iff] at h4
            apply h2
            rw [List.all_eq_true]
            intro x hx
            have e := List.takeWhile_append_dropWhile (p := teaBlank) (l := p)
            rw [h4, List.append_nil] at e
            rw [← e] at hx
            exact mem_takeWhile_holds hx
          rw [this]
          cases hd : p.dropWhile teaBlank with
          | nil => rw [hd] at this; cases this
          | cons d r => rfl
        rw [h3] at h1
        exact hasGap_of_drop h1
    rw [List.cons_append, teaGap, if_neg hx, ih fun h1 => hp (hasGap_cons h1)]
    rfl

theorem break_none (s : List Char) (h : teaGap s = none) : teaBreak s = [s] := by
  rw [teaBreak.eq_def]
  split
  · rfl
  · rename_i he; rw [h] at he; cases he

theorem break_some (s p r : List Char) (h : teaGap s = some (p, r)) : teaBreak s = p :: teaBreak r := by
  rw [teaBreak.eq_def]
  split
  · rename_i he; rw [h] at he; cases he
  · rename_i he; rw [h] at he; cases he; rfl

/-- Nothing, or something that does not begin with a blank. -/
def Solid (s : List Char) : Prop := ∀ c, s.head? = some c → docSpace c = false

theorem gap_spaces (w rest : List Char) (hr : Solid rest) :
    teaGap (w ++ rest) = match teaGap w with
      | some (p, r) => some (p, r ++ rest)
      | none => (teaGap rest).map fun x => (w ++ x.1, x.2) := by
  induction w with
  | nil =>
    show teaGap rest = (teaGap rest).map fun x => ([] ++ x.1, x.2)
    cases teaGap rest <;> rfl
  | cons c w ih =>
    have hx : (((w ++ rest).dropWhile teaBlank).head? = some '\n') ↔ ((w.dropWhile teaBlank).head? = some '\n') := by
      rw [List.dropWhile_append]
      split
      · rename_i h1
        rw [List.isEmpty_iff] at h1
        rw [h1]
        constructor
        · intro h2
          cases rest with
          | nil => cases h2
          | cons d rest =>
            have hd := hr d rfl
            have hb : teaBlank d = false := by
              rw [Bool.eq_false_iff]
              intro h3
              rcases (blank_iff d).1 h3 with rfl | rfl <;> cases hd
            rw [List.dropWhile_cons_of_neg (by rw [hb]; simp)] at h2
            cases h2
            cases hd
        · intro h2; cases h2
      · rename_i h1
        cases hd : w.dropWhile teaBlank with
        | nil => rw [hd] at h1; exact absurd rfl h1
        | cons d r => rfl
    rw [List.cons_append, teaGap, teaGap]
    by_cases h : c = '\n' ∧ (w.dropWhile teaBlank).head? = some '\n'
    · rw [if_pos ⟨h.1, hx.2 h.2⟩, if_pos h]
      cases w with
      | nil => cases h.2
      | cons d w => rfl
    · rw [if_neg (fun h1 => h ⟨h1.1, hx.1 h1.2⟩), if_neg h, ih]
      cases teaGap w with
      | none => cases teaGap rest <;> rfl
      | some x => rfl

theorem gap_parts (w p r : List Char) (h : teaGap w = some (p, r)) : ∀ c ∈ p ++ r, c ∈ w := by
  induction w generalizing p r with
  | nil => cases h
  | cons c w ih =>
    rw [teaGap] at h
    split at h
    · cases h
      intro d hd
      exact List.mem_cons_of_mem _ (List.mem_of_mem_drop hd)
    · obtain ⟨q, hq, e⟩ := Option.map_eq_some_iff.1 h
      cases e
      intro d hd
      rw [List.cons_append, List.mem_cons] at hd
      rcases hd with rfl | hd
      · simp
      · exact List.mem_cons_of_mem _ (ih q.1 q.2 hq d hd)

/-- The first with something before. -/
def onFirst (w : List Char) : List (List Char) → List (List Char)
  | [] => []
  | q :: qs => (w ++ q) :: qs

theorem break_spaces (n : Nat) (w rest : List Char) (hn : w.length ≤ n) (hw : ∀ c ∈ w, docSpace c = true) (hr : Solid rest) :
    ∃ vs w', (∀ v ∈ vs, ∀ c ∈ v, docSpace c = true) ∧ (∀ c ∈ w', docSpace c = true) ∧ teaBreak (w ++ rest) = vs ++ onFirst w' (teaBreak rest) := by
  induction n generalizing w with
  | zero =>
    have : w = [] := List.eq_nil_of_length_eq_zero (by omega)
    subst this
    refine ⟨[], [], fun v hv => by (cases hv), fun c hc => by (cases hc), ?_⟩
    show teaBreak rest = onFirst [] (teaBreak rest)
    cases teaBreak rest <;> rfl
  | succ n ih =>
    have key := gap_spaces w rest hr
    cases hg : teaGap w with
    | none =>
      rw [hg] at key
      refine ⟨[], w, fun v hv => by (cases hv), hw, ?_⟩
      cases hgr : teaGap rest with
      | none =>
        rw [hgr] at key
        rw [break_none _ key, break_none _ hgr]
        rfl
      | some x =>
        rw [hgr] at key
        rw [break_some _ _ _ key, break_some rest x.1 x.2 hgr]
        rfl
    | some x =>
      rw [hg] at key
      have hl := teaGap_length hg
      have hm := gap_parts w x.1 x.2 hg
      obtain ⟨vs, w', h1, h2, h3⟩ := ih x.2 (by omega) fun c hc => hw c (hm c (by simp [hc]))
      refine ⟨x.1 :: vs, w', ?_, h2, ?_⟩
      · intro v hv c hc
        rw [List.mem_cons] at hv
        rcases hv with rfl | hv
        · exact hw c (hm c (by simp [hc]))
        · exact h1 v hv c hc
      · rw [break_some _ _ _ key, h3]
        rfl

/-- What the paragraphs of a text are: some of blanks only, the others after blanks. -/
inductive Breaks : List (List Char) → List DocPar → Prop
  | nil : Breaks [] []
  | void {s L ps} : (∀ c ∈ s, docSpace c = true) → Breaks L ps → Breaks (s :: L) ps
  | par {w p L ps} : (∀ c ∈ w, docSpace c = true) → DocPar.Ok p → Breaks L ps → Breaks ((w ++ p.src) :: L) (p :: ps)

theorem breaks_voids {vs L : List (List Char)} {ps : List DocPar} (h : ∀ v ∈ vs, ∀ c ∈ v, docSpace c = true) (hL : Breaks L ps) : Breaks (vs ++ L) ps := by
  induction vs with
  | nil => exact hL
  | cons v vs ih => exact .void (h v (by simp)) (ih fun u hu => h u (by simp [hu]))

theorem solid_append {p : DocPar} (h : p.Ok) (t : List Char) : Solid (p.src ++ t) := by
  intro c hc
  have := h.solid
  cases hp : p.src with
  | nil => rw [hp] at this; cases this
  | cons d s =>
    rw [hp] at this hc
    cases hc
    simpa using this

theorem break_region (last : Option DocPar) (hl : ∀ p, last = some p → p.Ok ∧ ¬ HasGap p.src) (pars : List (DocPar × List Char))
    (hp : ∀ x ∈ pars, x.1.Ok ∧ IsGap x.2 ∧ ¬ HasGap (x.1.src ++ ['\n'])) (lead : List Char) (hlead : ∀ c ∈ lead, docSpace c = true) :
    Breaks (teaBreak (lead ++ parsSrc pars ++ lastSrc last)) (pars.map Prod.fst ++ last.toList) := by
  induction pars generalizing lead with
  | nil =>
    cases last with
    | none =>
      obtain ⟨vs, w, h1, h2, h3⟩ := break_spaces lead.length lead [] (Nat.le_refl _) hlead (fun c hc => by (cases hc))
      rw [parsSrc, lastSrc, List.append_nil]
      show Breaks (teaBreak (lead ++ [])) []
      rw [h3, break_none [] rfl]
      exact breaks_voids h1 (.void (by simpa using h2) .nil)
    | some p =>
      obtain ⟨hp1, hp2⟩ := hl p rfl
      obtain ⟨vs, w, h1, h2, h3⟩ := break_spaces lead.length lead p.src (Nat.le_refl _) hlead (by have := solid_append hp1 []; rwa [List.append_nil] at this)
      rw [parsSrc, lastSrc, List.append_nil]
      show Breaks (teaBreak (lead ++ p.src)) [p]
      rw [h3, break_none _ (gap_none _ hp2)]
      exact breaks_voids h1 (.par h2 hp1 .nil)
  | cons x xs ih =>
    obtain ⟨hx1, hx2, hx3⟩ := hp x (by simp)
    cases hx : x.2 with
    | nil => rw [hx] at hx2; cases hx2
    | cons d g =>
    rw [hx] at hx2
    generalize hdg : d :: g = dg at hx2
    cases hx2 with
    | @mk b w hb hw =>
      have hrest : lead ++ parsSrc (x :: xs) ++ lastSrc last = lead ++ (x.1.src ++ ('\n' :: b ++ '\n' :: (w ++ (parsSrc xs ++ lastSrc last)))) := by
        rw [parsSrc, hx, hdg]
        simp
      obtain ⟨vs, w', h1, h2, h3⟩ := break_spaces lead.length lead (x.1.src ++ ('\n' :: b ++ '\n' :: (w ++ (parsSrc xs ++ lastSrc last)))) (Nat.le_refl _) hlead (solid_append hx1 _)
      rw [hrest, h3, break_some _ _ _ (gap_found x.1.src b (w ++ (parsSrc xs ++ lastSrc last)) hx3 hb)]
      refine breaks_voids h1 (.par h2 hx1 ?_)
      have e : (b ++ '\n' :: (w ++ (parsSrc xs ++ lastSrc last))).drop 1 = (b ++ '\n' :: w).drop 1 ++ parsSrc xs ++ lastSrc last := by
        cases b with
        | nil => simp
        | cons y b => simp
      rw [e]
      refine ih (fun y hy => hp y (by simp [hy])) _ fun c hc => ?_
      have := List.mem_of_mem_drop hc
      rw [List.mem_append, List.mem_cons] at this
      rcases this with h | rfl | h
      · rcases hb c h with rfl | rfl <;> rfl
      · rfl
      · exact hw c h

/-! ### Blocks -/

theorem hasPair_cons {a b c : Char} {s : List Char} (h : HasPair a b s) : HasPair a b (c :: s) := by
  obtain ⟨x, y, e⟩ := h
  exact ⟨c :: x, y, by rw [e]; rfl⟩

theorem hasPair_head {a b : Char} {s : List Char} (h : s.head? = some b) : HasPair a b (a :: s) := by
  cases s with
  | nil => cases h
  | cons c s => cases h; exact ⟨[], s, rfl⟩

theorem open_none (s : List Char) (h : NotOpen s) : teaOpen s = none := by
  induction s with
  | nil => rfl
  | cons c s ih =>
    have h1 : ¬ (c = '{' ∧ s.head? = some '{') := by rintro ⟨rfl, h1⟩; exact h.1 (hasPair_head h1)
    have h2 : ¬ (c = '$' ∧ s.head? = some '{') := by rintro ⟨rfl, h3⟩; exact h.2 (hasPair_head h3)
    rw [teaOpen, if_neg h1, if_neg h2, ih ⟨fun g => h.1 (hasPair_cons g), fun g => h.2 (hasPair_cons g)⟩]
    rfl

theorem head_append_ne {s t u : List Char} {c : Char} (h : s ≠ [] ∨ t.head? = u.head?) : (s ++ t).head? = some c ↔ (s ++ u).head? = some c := by
  cases s with
  | nil => rcases h with h | h; exact absurd rfl h; rw [List.nil_append, List.nil_append, h]
  | cons d s => exact Iff.rfl

theorem open_heading (s t : List Char) (h : NotOpen (s ++ ['{'])) : teaOpen (s ++ '{' :: '{' :: t) = some (s, false, t) := by
  induction s with
  | nil => rfl
  | cons c s ih =>
    have e : ∀ d, (s ++ '{' :: '{' :: t).head? = some d ↔ (s ++ ['{']).head? = some d := fun d => head_append_ne (.inr rfl)
    have h1 : ¬ (c = '{' ∧ (s ++ '{' :: '{' :: t).head? = some '{') := by rintro ⟨rfl, h1⟩; exact h.1 (hasPair_head ((e _).1 h1))
    have h2 : ¬ (c = '$' ∧ (s ++ '{' :: '{' :: t).head? = some '{') := by rintro ⟨rfl, h3⟩; exact h.2 (hasPair_head ((e _).1 h3))
    rw [List.cons_append, teaOpen, if_neg h1, if_neg h2, ih ⟨fun g => h.1 (hasPair_cons g), fun g => h.2 (hasPair_cons g)⟩]
    rfl

theorem open_code (s t : List Char) (h : NotOpen (s ++ ['{'])) : teaOpen (s ++ '$' :: '{' :: t) = some (s, true, t) := by
  induction s with
  | nil => rfl
  | cons c s ih =>
    have e : (s ++ '$' :: '{' :: t).head? = some '{' → (s ++ ['{']).head? = some '{' := by
      cases s with
      | nil => intro h; cases h
      | cons d s => exact id
    have h1 : ¬ (c = '{' ∧ (s ++ '$' :: '{' :: t).head? = some '{') := by rintro ⟨rfl, h1⟩; exact h.1 (hasPair_head (e h1))
    have h2 : ¬ (c = '$' ∧ (s ++ '$' :: '{' :: t).head? = some '{') := by rintro ⟨rfl, h3⟩; exact h.2 (hasPair_head (e h3))
    rw [List.cons_append, teaOpen, if_neg h1, if_neg h2, ih ⟨fun g => h.1 (hasPair_cons g), fun g => h.2 (hasPair_cons g)⟩]
    rfl

theorem close_found (s t : List Char) (h : ¬ HasPair '}' '}' (s ++ ['}'])) : teaClose (s ++ '}' :: '}' :: t) = some (s, t) := by
  induction s with
  | nil => rfl
  | cons c s ih =>
    have e : (s ++ '}' :: '}' :: t).head? = some '}' ↔ (s ++ ['}']).head? = some '}' := head_append_ne (.inr rfl)
    have h1 : ¬ (c = '}' ∧ (s ++ '}' :: '}' :: t).head? = some '}') := by rintro ⟨rfl, h1⟩; exact h (hasPair_head (e.1 h1))
    rw [List.cons_append, teaClose, if_neg h1, ih fun g => h (hasPair_cons g)]
    rfl

theorem brace_balanced {c : List Char} (h : BracePairs c) (l : Nat) (rest : List Char) : teaBrace l (c ++ rest) = (teaBrace l rest).map fun r => (c ++ r.1, r.2) := by
  induction h generalizing l rest with
  | nil => cases h : teaBrace l rest <;> simp [h]
  | @char c s h1 h2 h3 _ ih =>
    rw [List.cons_append, teaBrace.eq_def]
    split
    · rename_i h; cases h
    · rename_i h; injection h with h _; exact absurd h h1
    · rename_i h
      cases h
      rw [if_neg h2, if_neg h3, ih]
      cases teaBrace l rest <;> rfl
  | @esc c s _ ih =>
    show teaBrace l ('\\' :: c :: (s ++ rest)) = _
    rw [teaBrace, ih]
    cases teaBrace l rest <;> rfl
  | @pair s t _ _ ih1 ih2 =>
    have e : '{' :: s ++ '}' :: t ++ rest = '{' :: (s ++ ('}' :: (t ++ rest))) := by simp
    have e1 : ∀ x, teaBrace l ('{' :: x) = (teaBrace (l + 1) x).map fun r => ('{' :: r.1, r.2) := by
      intro x
      rw [teaBrace.eq_def]
      split
      · rename_i h; cases h
      · rename_i h; injection h with h _; exact absurd h (by decide)
      · rename_i h; cases h; rw [if_pos rfl]
    have e2 : ∀ x, teaBrace (l + 1) ('}' :: x) = (teaBrace l x).map fun r => ('}' :: r.1, r.2) := by
      intro x
      rw [teaBrace.eq_def]
      split
      · rename_i h; cases h
      · rename_i h; injection h with h _; exact absurd h (by decide)
      · rename_i h; cases h; rw [if_neg (by decide), if_pos rfl]
    rw [e, e1, ih1, e2, ih2]
    cases teaBrace l rest <;> simp

theorem brace_found {c : List Char} (h : BracePairs c) (rest : List Char) : teaBrace 0 (c ++ '}' :: rest) = some (c, rest) := by
  rw [brace_balanced h]
  have : teaBrace 0 ('}' :: rest) = some ([], rest) := by
    rw [teaBrace.eq_def]
    split
    · rename_i h; cases h
    · rename_i h; injection h with h _; exact absurd h (by decide)
    · rename_i h; cases h; rw [if_neg (by decide), if_pos rfl]
  rw [this]
  simp

/-- The blocks of a page. -/
def blocksMore : List (DocSpecial × DocRegion) → List (TeaKind × List Char)
  | [] => []
  | (.heading ts, r) :: xs => (.heading, srcOf ts) :: (.par, r.src) :: blocksMore xs
  | (.code c, r) :: xs => (.code, c) :: (.par, r.src) :: blocksMore xs

theorem blocks_page (xs : List (DocSpecial × DocRegion)) (hx : MoreOk xs) (s : List Char) (hs : NotOpen (s ++ if xs.isEmpty = false then ['{'] else [])) :
    teaBlocks (s ++ pageMore xs) = some ((.par, s) :: blocksMore xs) := by
  induction xs generalizing s with
  | nil =>
    rw [pageMore, List.append_nil, teaBlocks.eq_def]
    split
    · rfl
    all_goals
      rename_i h
      rw [open_none s (by simpa using hs)] at h
      cases h
  | cons x xs ih =>
    obtain ⟨sp, r⟩ := x
    cases hx with
    | cons h1 h2 h3 =>
      have ih' := ih h3 r.src (by have := h2.2; cases hxs : xs.isEmpty <;> rw [hxs] at this <;> simpa using this)
      simp only [List.isEmpty_cons, if_true] at hs
      cases h1 with
      | @heading ts g1 g2 g3 g4 =>
        have e : s ++ pageMore ((.heading ts, r) :: xs) = s ++ '{' :: '{' :: (srcOf ts ++ '}' :: '}' :: (r.src ++ pageMore xs)) := by
          simp [pageMore, DocSpecial.src]
        rw [e, teaBlocks.eq_def]
        split
        · rename_i h; rw [open_heading _ _ hs] at h; cases h
        · rename_i h
          rw [open_heading _ _ hs] at h
          cases h
          split
          · rename_i h; rw [close_found _ _ g2] at h; cases h
          · rename_i h
            rw [close_found _ _ g2] at h
            cases h
            rw [ih']
            rfl
        · rename_i h; rw [open_heading _ _ hs] at h; cases h
      | @code c g1 g2 =>
        have e : s ++ pageMore ((.code c, r) :: xs) = s ++ '$' :: '{' :: (c ++ '}' :: (r.src ++ pageMore xs)) := by
          simp [pageMore, DocSpecial.src]
        rw [e, teaBlocks.eq_def]
        split
        · rename_i h; rw [open_code _ _ hs] at h; cases h
        · rename_i h; rw [open_code _ _ hs] at h; cases h
        · rename_i h
          rw [open_code _ _ hs] at h
          cases h
          split
          · rename_i h; rw [brace_found g1] at h; cases h
          · rename_i h
            rw [brace_found g1] at h
            cases h
            rw [ih']
            rfl

/-! ### Pages -/

/-- Code without tabulations. -/
def noTabs (c : List Char) : List Char := c.map fun x => if x = '\t' then ' ' else x

/-- The blocks after the paragraphs were separated. -/
inductive Purified : List (TeaKind × List Char) → List DocItem → Prop
  | nil : Purified [] []
  | void {s L is} : (∀ c ∈ s, docSpace c = true) → Purified L is → Purified ((.par, s) :: L) is
  | par {w p L is} : (∀ c ∈ w, docSpace c = true) → DocPar.Ok p → Purified L is → Purified ((.par, w ++ p.src) :: L) (.par p :: is)
  | heading {ts L is} : DocSpecial.Ok (.heading ts) → Purified L is → Purified ((.heading, showFrom none ts) :: L) (.special (.heading ts) :: is)
  | code {c L is} : DocSpecial.Ok (.code c) → Purified L is → Purified ((.code, noTabs c) :: L) (.special (.code c) :: is)

theorem purified_breaks {L : List (List Char)} {ps : List DocPar} (h : Breaks L ps) {M : List (TeaKind × List Char)} {is : List DocItem} (hM : Purified M is) :
    Purified (L.map (fun p => (TeaKind.par, p)) ++ M) (ps.map .par ++ is) := by
  induction h with
  | nil => exact hM
  | void h _ ih => exact .void h ih
  | par h1 h2 _ ih => exact .par h1 h2 ih

theorem purify_cons (b : TeaKind × List Char) (bs : List (TeaKind × List Char)) :
    teaPurify (b :: bs) = (match b.1 with
      | .par => (teaBreak b.2).map fun p => (TeaKind.par, p)
      | .heading => [(.heading, (teaSweep false true b.2).1)]
      | .code => [(.code, noTabs b.2)]) ++ teaPurify bs := by
  simp only [teaPurify, List.map_cons, List.flatten_cons]
  rfl

theorem purified_region {r : DocRegion} (hr : r.Ok) {bs : List (TeaKind × List Char)} {is : List DocItem} (h : Purified (teaPurify bs) is) :
    Purified (teaPurify ((.par, r.src) :: bs)) (r.list.map .par ++ is) := by
  rw [purify_cons]
  exact purified_breaks (break_region r.last hr.last r.pars hr.pars r.lead hr.lead) h

theorem purified_more (xs : List (DocSpecial × DocRegion)) (hx : MoreOk xs) : Purified (teaPurify (blocksMore xs)) (itemsMore xs) := by
  induction hx with
  | nil => exact .nil
  | @cons x xs h1 h2 _ ih =>
    obtain ⟨sp, r⟩ := x
    have hr := purified_region h2.1 ih
    rw [itemsMore]
    cases sp with
    | heading ts =>
      rw [blocksMore, purify_cons]
      simp only
      cases h1 with
      | heading g1 g2 g3 g4 =>
        rw [sweep_heading ts g1 g3]
        exact .heading (.heading g1 g2 g3 g4) hr
    | code c =>
      rw [blocksMore, purify_cons]
      exact .code h1 hr

/-- What is seen of a block: its kind, level, whether the mark is hidden, its text or its parts. -/
def teaView (b : TeaBlock × List TeaNode) : TeaKind × Nat × Bool × List Char × List TeaNode :=
  (b.1.kind, b.1.level, b.1.noMark, if b.1.kind = .par then [] else b.1.content, b.2)

/-- What a page should give: code is of the level of the paragraph before. -/
def itemsView (h : TeaNode → TeaNode) (D : Deco) : Nat → List DocItem → List (TeaKind × Nat × Bool × List Char × List TeaNode)
  | _, [] => []
  | _, .par p :: is => (.par, p.level, p.hide, [], shownPieces none (pieces h D p.shown)) :: itemsView h D p.level is
  | _, .special (.heading ts) :: is => (.heading, 0, false, showFrom none ts, []) :: itemsView h D 0 is
  | last, .special (.code c) :: is => (.code, last, false, noTabs c, []) :: itemsView h D last is

theorem dash_run (n : Nat) (s : List Char) (h : s.head? ≠ some '-') :
    ((List.replicate n '-' ++ s).takeWhile (· == '-')).length = n ∧ (List.replicate n '-' ++ s).drop n = s := by
  induction n with
  | zero =>
    refine ⟨?_, rfl⟩
    cases s with
    | nil => rfl
    | cons c s =>
      have : c ≠ '-' := fun e => h (by rw [e]; rfl)
      show ((c :: s).takeWhile (· == '-')).length = 0
      rw [List.takeWhile_cons_of_neg (by simpa using this)]
      rfl
  | succ n ih =>
    rw [List.replicate_succ, List.cons_append]
    refine ⟨?_, ?_⟩
    · rw [List.takeWhile_cons_of_pos (by rfl), List.length_cons, ih.1]
    · rw [List.drop_succ_cons, ih.2]

theorem dropWhile_spaces {w : List Char} (hw : ∀ c ∈ w, docSpace c = true) (s : List Char) (hs : Solid s) : (w ++ s).dropWhile teaSpace = s := by
  induction w with
  | nil =>
    cases s with
    | nil => rfl
    | cons c s =>
      have := hs c rfl
      rw [List.nil_append, List.dropWhile_cons_of_neg (by rw [teaSpace_eq, this]; simp)]
  | cons c w ih =>
    rw [List.cons_append, List.dropWhile_cons_of_pos (by rw [teaSpace_eq]; exact hw c (by simp)), ih fun d hd => hw d (by simp [hd])]

theorem shown_src (p : DocPar) : p.shown.src = if p.hide = false ∧ 0 < p.level then '-' :: p.text.src else p.text.src := by
  unfold DocPar.shown
  split
  · rw [DocText.src, srcOf_cons]
    rfl
  · rfl

theorem shown_ok {p : DocPar} (h : p.Ok) : p.shown.Ok := by
  unfold DocPar.shown
  split
  · exact ⟨⟨without_cons.2 ⟨by decide, h.text.first.1⟩, without_cons.2 ⟨by decide, h.text.first.2⟩⟩, h.text.more⟩
  · exact h.text

theorem level_par (esc : Bool) (w : List Char) (hw : ∀ c ∈ w, docSpace c = true) (p : DocPar) (hp : p.Ok) :
    ∃ w', (∀ c ∈ w', docSpace c = true) ∧ (teaLevel esc (w ++ p.src)).2 = ⟨.par, p.level, p.hide, w' ++ p.shown.src⟩ := by
  have hd := dropWhile_spaces hw p.src (by have := solid_append hp []; rwa [List.append_nil] at this)
  have hrun := dash_run p.level p.text.src hp.noDash
  unfold teaLevel
  rw [hd]
  cases hh : p.hide with
  | true =>
    have e : p.src = '@' :: (List.replicate p.level '-' ++ p.text.src) := by simp [DocPar.src, hh]
    rw [e]
    refine ⟨[], fun c hc => by (cases hc), ?_⟩
    rw [shown_src, if_neg (by simp [hh])]
    have hc : ('@' == '@') = true := rfl
    simp only [hc, if_true, hrun.1, hrun.2, Bool.or_true, Bool.true_or]
    rfl
  | false =>
    have e : p.src = List.replicate p.level '-' ++ p.text.src := by simp [DocPar.src, hh]
    cases hl : p.level with
    | zero =>
      rw [hl] at e hrun
      have e' : p.src = p.text.src := by simpa using e
      have hat := hp.noAt hh hl
      have hs := hp.solid
      cases hsrc : p.src with
      | nil => rw [hsrc] at hs; cases hs
      | cons c s =>
        rw [hsrc] at e'
        rw [← e'] at hat hrun
        have hc : (c == '@') = false := by
          rw [beq_eq_false_iff_ne]
          intro h
          exact hat (by rw [h]; rfl)
        have hrun1 : ((c :: s).takeWhile (· == '-')).length = 0 := hrun.1
        simp only [hc, Bool.false_eq_true, if_false, hrun1, List.drop_zero, Nat.lt_irrefl, Bool.or_false, decide_false]
        have hx : ¬ (p.hide = false ∧ 0 < p.level) := by omega
        have hsh : p.shown.src = c :: s := by rw [shown_src, if_neg hx, ← e']
        rw [hsh]
        cases esc with
        | true => exact ⟨[], fun c hc => by (cases hc), rfl⟩
        | false => exact ⟨w, hw, rfl⟩
    | succ n =>
      rw [hl] at e hrun
      refine ⟨[], fun c hc => by (cases hc), ?_⟩
      rw [shown_src, if_pos ⟨hh, by omega⟩]
      have e' : p.src = '-' :: (List.replicate n '-' ++ p.text.src) := by rw [e, List.replicate_succ]; rfl
      rw [List.replicate_succ, List.cons_append] at hrun
      rw [e']
      have hc : ('-' == '@') = false := by decide
      simp only [hc, Bool.false_eq_true, if_false, hrun.1, hrun.2, Nat.zero_lt_succ, if_true, decide_true, Bool.or_true]
      rfl

theorem nonvoid_of {s : List Char} (h : ∃ c ∈ s, docSpace c = false) : (s.dropWhile teaSpace).isEmpty = false := by
  induction s with
  | nil => obtain ⟨c, hc, _⟩ := h; cases hc
  | cons d s ih =>
    obtain ⟨c, hc, h1⟩ := h
    rw [List.dropWhile_cons]
    split
    · rename_i hd
      rw [List.mem_cons] at hc
      rcases hc with rfl | hc
      · rw [teaSpace_eq, h1] at hd; cases hd
      · exact ih ⟨c, hc, h1⟩
    · rfl

theorem void_of {s : List Char} (h : ∀ c ∈ s, docSpace c = true) : s.dropWhile teaSpace = [] := by
  have := dropWhile_spaces h [] (fun c hc => by (cases hc))
  rwa [List.append_nil] at this

theorem shown_some {p : DocPar} (hp : p.Ok) : ∃ c ∈ p.shown.src, docSpace c = false := by
  rw [shown_src]
  split
  · exact ⟨'-', by simp, rfl⟩
  · rename_i h
    cases hh : p.hide with
    | true => exact hp.some hh
    | false =>
      have hl : p.level = 0 := by
        have : ¬ (0 < p.level) := fun g => h ⟨hh, g⟩
        omega
      have hs := hp.solid
      have e : p.src = p.text.src := by simp [DocPar.src, hh, hl]
      rw [e] at hs
      cases ht : p.text.src with
      | nil => rw [ht] at hs; cases hs
      | cons c s =>
        rw [ht] at hs
        exact ⟨c, by simp, by simpa using hs⟩

theorem levels_items {h : TeaNode → TeaNode} {D : Deco} (hD : Decorates h D) {L : List (TeaKind × List Char)} {is : List DocItem} (hL : Purified L is) (esc : Bool) (last : Nat) :
    ∃ p, ((teaNonVoid (teaLevels esc last L)).mapM fun b => if b.kind = .par then (teaParagraph h b.content).map fun ns => (b, ns) else some (b, [])) = some p ∧
      p.map teaView = itemsView h D last is := by
  induction hL generalizing esc last with
  | nil => exact ⟨[], rfl, rfl⟩
  | @void s L is hs _ ih =>
    obtain ⟨p, h1, h2⟩ := ih (teaLevel esc s).1 last
    refine ⟨p, ?_, h2⟩
    rw [teaLevels]
    simp only [void_of hs, if_true]
    have : (teaLevel esc s).2.content = s := by unfold teaLevel; rw [void_of hs]
    unfold teaNonVoid at h1 ⊢
    rw [List.filter_cons_of_neg (by rw [this, void_of hs]; simp)]
    exact h1
  | @par w q L is hw hq _ ih =>
    obtain ⟨w', hw', e⟩ := level_par esc w hw q hq
    obtain ⟨p, h1, h2⟩ := ih (teaLevel esc (w ++ q.src)).1 q.level
    have hd := dropWhile_spaces hw q.src (by have := solid_append hq []; rwa [List.append_nil] at this)
    have hne : q.src ≠ [] := by
      intro e
      have := hq.solid
      rw [e] at this
      cases this
    refine ⟨(⟨.par, q.level, q.hide, w' ++ q.shown.src⟩, shownPieces none (pieces h D q.shown)) :: p, ?_, ?_⟩
    · rw [teaLevels]
      simp only [hd, if_neg hne, e]
      unfold teaNonVoid at h1 ⊢
      obtain ⟨c, hc, hc'⟩ := shown_some hq
      rw [List.filter_cons_of_pos (by rw [nonvoid_of ⟨c, by simp [hc], hc'⟩]; rfl), List.mapM_cons, if_pos rfl, paragraph_text hD w' hw' _ (shown_ok hq), h1]
      rfl
    · rw [List.map_cons, h2]
      rfl
  | @heading ts L is hs _ ih =>
    obtain ⟨p, h1, h2⟩ := ih esc 0
    cases hs with
    | heading g1 g2 g3 g4 =>
      refine ⟨(⟨.heading, 0, false, showFrom none ts⟩, []) :: p, ?_, by rw [List.map_cons, h2]; rfl⟩
      rw [teaLevels]
      unfold teaNonVoid at h1 ⊢
      rw [List.filter_cons_of_pos (by rw [nonvoid_of g4]; rfl), List.mapM_cons, if_neg (by simp), h1]
      rfl
  | @code c L is hs _ ih =>
    obtain ⟨p, h1, h2⟩ := ih esc last
    cases hs with
    | code g1 g2 =>
      have g3 : ∃ x ∈ noTabs c, docSpace x = false := by
        obtain ⟨x, hx, hx'⟩ := g2
        refine ⟨x, List.mem_map.2 ⟨x, hx, ?_⟩, hx'⟩
        rw [if_neg (by rintro rfl; cases hx')]
      refine ⟨(⟨.code, last, false, noTabs c⟩, []) :: p, ?_, by rw [List.map_cons, h2]; rfl⟩
      rw [teaLevels]
      unfold teaNonVoid at h1 ⊢
      rw [List.filter_cons_of_pos (by rw [nonvoid_of g3]; rfl), List.mapM_cons, if_neg (by simp), h1]
      rfl

theorem page_items {h : TeaNode → TeaNode} {D : Deco} (hD : Decorates h D) (d : DocPage) (hd : d.Ok) :
    ∃ p, teaPage h d.src = some p ∧ p.map teaView = itemsView h D 0 d.items := by
  have hb := blocks_page d.more hd.more d.start.src (by
    have := hd.start.2
    cases hx : d.more.isEmpty <;> rw [hx] at this <;> simpa using this)
  obtain ⟨p, h1, h2⟩ := levels_items hD (purified_region hd.start.1 (purified_more d.more hd.more)) false 0
  refine ⟨p, ?_, h2⟩
  unfold teaPage
  rw [show d.src = d.start.src ++ pageMore d.more from rfl, hb]
  exact h1

end PBat
