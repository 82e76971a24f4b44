import Verif.Lemmas.TeaHtmlPage
/-
C91: the program TEA makes HTML of its pages.
-/
namespace PBat
open Spec

/-! ### Paragraphs -/

/-- A paragraph that HTML can show: no escaped ends of lines, targets of links without escaped characters or quotes, and a text that does not begin with what looks like the mark of
an item. -/
structure HtmlPar (p : DocPar) : Prop where
  dash : p.marked = false → (showParts none (textParts p.text)).head? ≠ some (.normal, '-')
  lines : ∀ x ∈ textParts p.text, .esc '\n' ∉ x.2
  targets : ∀ x ∈ p.text.more, ∀ a b, x.1 = .link a b → ∀ t ∈ a, ∃ c, t = .plain c ∧ c ≠ '"'

theorem show_lines {p : Option DocTok} {ts : List DocTok} (h : DocTok.esc '\n' ∉ ts) : '\n' ∉ showFrom p ts := by
  induction ts generalizing p with
  | nil => simp [showFrom]
  | cons t ts ih =>
    rw [List.mem_cons, not_or] at h
    rw [showFrom, List.mem_append, not_or]
    refine ⟨?_, ih h.2⟩
    cases t with
    | esc c =>
      rw [showTok]
      simp
      rintro rfl
      exact h.1 rfl
    | plain c =>
      rw [showTok]
      split
      · split <;> simp
      · rename_i hc
        simp
        rintro rfl
        exact hc rfl

theorem shows_plain {tag : List Char} (d : Nat) (f : Bool) (sty : HStyle) (text : List (HStyle × Char)) {s : List Char} (h : '\n' ∉ s) :
    Shows (htmlText s) (.block tag d f sty text) (.block tag d f sty (text ++ s.map fun c => (sty, c))) [] := by
  have e : s.map (blockChar tag sty) = s.map fun c => (sty, c) := by
    refine List.map_congr_left fun c hc => ?_
    unfold blockChar
    rw [if_neg]
    rintro ⟨rfl, -⟩
    exact h hc
  have := shows_text tag d f sty text s
  rwa [e] at this

theorem shows_emph (d : Nat) (f : Bool) (text : List (HStyle × Char)) {s : List Char} (h : '\n' ∉ s) (first : Bool) :
    Shows (teaHtmlNode false first ⟨.emph, htmlText s, []⟩) (.block ['p'] d f .normal text) (.block ['p'] d f .normal (text ++ s.map fun c => (HStyle.strong, c))) [] := by
  show Shows (['<', 's', 't', 'r', 'o', 'n', 'g', '>'] ++ htmlText s ++ ['<', '/', 's', 't', 'r', 'o', 'n', 'g', '>']) _ _ _
  rw [List.append_assoc]
  exact Shows.then (.one (k := .opening ['s', 't', 'r', 'o', 'n', 'g'] none) (by decide) rfl)
    (Shows.then (shows_plain d f .strong text h) (.one (k := .closing ['s', 't', 'r', 'o', 'n', 'g']) (by decide) rfl))

theorem shows_link (d : Nat) (f : Bool) (text : List (HStyle × Char)) {s t : List Char} (h : '\n' ∉ s) (ht : '"' ∉ t) (first : Bool) :
    Shows (teaHtmlNode false first ⟨.link, htmlText s, htmlText t⟩) (.block ['p'] d f .normal text)
      (.block ['p'] d f .normal (text ++ s.map fun c => (HStyle.link (withExtension t), c))) [] := by
  show Shows (['<', 'a', ' ', 'h', 'r', 'e', 'f', '=', '"'] ++ htmlText t ++ teaExt false (htmlText t) ++ ['"', '>'] ++ htmlText s ++ ['<', '/', 'a', '>']) _ _ _
  rw [List.append_assoc (_ ++ ['"', '>'])]
  exact Shows.then (.one (lex_link t ht) rfl) (Shows.then (shows_plain d f (.link _) text h) (.one (k := .closing ['a']) (by decide) rfl))

/-- A part that is in braces. -/
theorem shows_inline (d : Nat) (f : Bool) (text : List (HStyle × Char)) (p : Option DocTok) (i : DocInline) (hl : DocTok.esc '\n' ∉ (inlinePart i).2)
    (ht : ∀ a b, i = .link a b → ∀ t ∈ a, ∃ c, t = .plain c ∧ c ≠ '"') (first : Bool) :
    Shows (teaHtmlNode false first { inlineNode (escInline i) with content := showFrom p (sameDeco.inline (escInline i)) }) (.block ['p'] d f .normal text)
      (.block ['p'] d f .normal (text ++ (showFrom p (inlinePart i).2).map fun c => ((inlinePart i).1, c))) [] := by
  cases i with
  | emph ts =>
    show Shows (teaHtmlNode false first ⟨.emph, showFrom p (escToks ts), []⟩) _ _ _
    rw [showFrom_esc]
    exact shows_emph d f text (show_lines hl) first
  | link a b =>
    have ht := ht a b rfl
    have hs : ∀ a : List DocTok, (∀ t ∈ a, ∃ c, t = .plain c ∧ c ≠ '"') → srcOf a = a.map DocTok.chr ∧ '"' ∉ a.map DocTok.chr := by
      intro a
      induction a with
      | nil => intro _; exact ⟨rfl, by simp⟩
      | cons t a ih =>
        intro h
        obtain ⟨c, rfl, hc⟩ := h t (by simp)
        obtain ⟨e1, e2⟩ := ih fun u hu => h u (by simp [hu])
        rw [srcOf_cons, e1]
        refine ⟨rfl, ?_⟩
        rw [List.map_cons, List.mem_cons, not_or]
        exact ⟨fun e => hc e.symm, e2⟩
    obtain ⟨e1, e2⟩ := hs a ht
    show Shows (teaHtmlNode false first ⟨.link, showFrom p (escToks b), srcOf (escToks a)⟩) _ _ _
    rw [showFrom_esc, srcOf_esc, e1]
    exact shows_link d f text (show_lines hl) e2 first

theorem html_empty (s : List Char) : (htmlText s).isEmpty = s.isEmpty := by
  have := htmlText_head s
  cases s with
  | nil => rfl
  | cons c s =>
    cases h : htmlText (c :: s) with
    | nil => rw [h] at this; cases this
    | cons d r => rfl

theorem plain_node (s : List Char) : teaHtmlNode false false ⟨.plain, s, []⟩ = s := by simp [teaHtmlNode]

theorem nodes_append (a b : List TeaNode) : teaHtmlNodes false false (a ++ b) = teaHtmlNodes false false a ++ teaHtmlNodes false false b := by
  induction a with
  | nil => rfl
  | cons n a iha => rw [List.cons_append, teaHtmlNodes, teaHtmlNodes, iha, List.append_assoc]

/-- The parts after the first. -/
theorem shows_more (d : Nat) (f : Bool) (xs : List (DocInline × List DocTok)) (hl : ∀ x ∈ moreParts xs, .esc '\n' ∉ x.2)
    (ht : ∀ x ∈ xs, ∀ a b, x.1 = .link a b → ∀ t ∈ a, ∃ c, t = .plain c ∧ c ≠ '"') (p : Option DocTok) (text : List (HStyle × Char)) :
    Shows (teaHtmlNodes false false (shownPieces p (piecesMore id sameDeco (escMore xs)))) (.block ['p'] d f .normal text)
      (.block ['p'] d f .normal (text ++ showParts p (moreParts xs))) [] := by
  induction xs generalizing p text with
  | nil => rw [moreParts, showParts, List.append_nil]; exact .nil _
  | cons x xs ih =>
    rw [escMore, piecesMore, shownPieces, shownPieces, moreParts, showParts, showParts, nodes_append, nodes_append]
    have hi : ((sameDeco.inline (escInline x.1)).getLast?.or p).all DocTok.blank = ((inlinePart x.1).2.getLast?.or p).all DocTok.blank := by
      cases x.1 with
      | emph ts => exact last_esc p ts
      | link a b => exact last_esc p b
    have hsame : sameDeco.text (escToks x.2) = escToks x.2 := text_same (fun _ => rfl) _
    have h1 := hl (inlinePart x.1) (by simp [moreParts])
    have h2 := hl (.normal, x.2) (by simp [moreParts])
    have hshow : showFrom p (sameDeco.inline (escInline x.1)) = htmlText (showFrom p (inlinePart x.1).2) := by
      cases x.1 with
      | emph ts => exact showFrom_esc p ts
      | link a b => exact showFrom_esc p b
    refine Shows.then (b := .block ['p'] d f .normal (text ++ (showFrom p (inlinePart x.1).2).map fun c => ((inlinePart x.1).1, c))) ?_ ?_
    · by_cases he : (showFrom p (inlinePart x.1).2) = []
      · simp only [hshow, he, html_empty]
        simp only [List.isEmpty_nil, if_true, List.map_nil, List.append_nil]
        exact .nil _
      · rw [if_neg (by simp only [hshow, html_empty]; simpa using he)]
        show Shows (teaHtmlNode false false _ ++ []) _ _ _
        rw [List.append_nil]
        exact shows_inline d f text p x.1 h1 (ht x (by simp)) false
    · refine Shows.then (b := .block ['p'] d f .normal (text ++ ((showFrom p (inlinePart x.1).2).map fun c => ((inlinePart x.1).1, c)) ++
          (showFrom ((inlinePart x.1).2.getLast?.or p) x.2).map fun c => (HStyle.normal, c))) ?_ ?_
      · simp only [hsame]
        rw [showFrom_prev hi, showFrom_esc]
        by_cases he : showFrom ((inlinePart x.1).2.getLast?.or p) x.2 = []
        · rw [he]
          simp only [htmlText, List.isEmpty_nil, if_true, List.map_nil, List.append_nil]
          exact .nil _
        · rw [if_neg (by rw [html_empty]; simpa using he)]
          show Shows (teaHtmlNode false false ⟨.plain, _, []⟩ ++ []) _ _ _
          rw [List.append_nil, plain_node]
          exact shows_plain d f .normal _ (show_lines h2)
      · simp only [hsame]
        rw [shownPieces_prev (q := x.2.getLast?.or ((inlinePart x.1).2.getLast?.or p))]
        · have := ih (fun y hy => hl y (by simp [moreParts, hy])) (fun y hy => ht y (by simp [hy])) (x.2.getLast?.or ((inlinePart x.1).2.getLast?.or p))
            (text ++ ((showFrom p (inlinePart x.1).2).map fun c => ((inlinePart x.1).1, c)) ++ (showFrom ((inlinePart x.1).2.getLast?.or p) x.2).map fun c => (HStyle.normal, c))
          simpa [List.append_assoc] using this
        · rw [last_esc]
          cases x.2.getLast? with
          | none => exact hi
          | some u => rfl

/-- The whole text, if nothing is taken for a mark. -/
theorem shows_doc (d : Nat) (f : Bool) (t : DocText) (hl : ∀ x ∈ textParts t, .esc '\n' ∉ x.2)
    (ht : ∀ x ∈ t.more, ∀ a b, x.1 = .link a b → ∀ t ∈ a, ∃ c, t = .plain c ∧ c ≠ '"') :
    Shows (teaHtmlNodes false false (shownPieces none (pieces id sameDeco (escText t)))) (.block ['p'] d f .normal []) (.block ['p'] d f .normal (showParts none (textParts t))) [] := by
  have hsame : sameDeco.text (escToks t.first) = escToks t.first := text_same (fun _ => rfl) _
  show Shows (teaHtmlNodes false false ((if (showFrom none (sameDeco.text (escToks t.first))).isEmpty then [] else
    [⟨.plain, showFrom none (sameDeco.text (escToks t.first)), []⟩]) ++ shownPieces ((sameDeco.text (escToks t.first)).getLast?.or none) (piecesMore id sameDeco (escMore t.more)))) _ _ _
  rw [nodes_append, textParts, showParts, hsame, showFrom_esc]
  refine Shows.then (b := .block ['p'] d f .normal ((showFrom none t.first).map fun c => (HStyle.normal, c))) ?_ ?_
  · by_cases he : showFrom none t.first = []
    · rw [he]; exact .nil _
    · rw [if_neg (by rw [html_empty]; simpa using he)]
      show Shows (teaHtmlNode false false ⟨.plain, _, []⟩ ++ []) _ _ _
      rw [List.append_nil, plain_node]
      exact shows_plain d f .normal [] (show_lines (hl (.normal, t.first) (by simp [textParts])))
  · rw [shownPieces_prev (last_esc none t.first)]
    exact shows_more d f t.more (fun y hy => hl y (by simp [textParts, hy])) ht _ _

theorem html_head_dash (s : List Char) : (htmlText s).head? = some '-' ↔ s.head? = some '-' := htmlText_head_is (by decide) s

/-- No mark at the beginning: nothing is left out. -/
theorem nodes_first {ns : List TeaNode} (h : ∀ n, ns.head? = some n → n.kind = .plain → n.content.head? ≠ some '-') : teaHtmlNodes false true ns = teaHtmlNodes false false ns := by
  cases ns with
  | nil => rfl
  | cons n ns =>
    rw [teaHtmlNodes, teaHtmlNodes]
    congr 1
    unfold teaHtmlNode
    have := h n rfl
    cases hk : n.kind with
    | plain => simp [this hk]
    | link => rfl
    | emph => rfl

theorem more_first (p : Option DocTok) (xs : List (DocInline × List DocTok)) (h : (showParts p (moreParts xs)).head? ≠ some (.normal, '-')) :
    ∀ n, (shownPieces p (piecesMore id sameDeco (escMore xs))).head? = some n → n.kind = .plain → n.content.head? ≠ some '-' := by
  induction xs generalizing p with
  | nil => intro n hn; cases hn
  | cons x xs ih =>
    intro n hn hk
    have hi : ((sameDeco.inline (escInline x.1)).getLast?.or p).all DocTok.blank = ((inlinePart x.1).2.getLast?.or p).all DocTok.blank := by
      cases x.1 with
      | emph ts => exact last_esc p ts
      | link a b => exact last_esc p b
    have hshow : showFrom p (sameDeco.inline (escInline x.1)) = htmlText (showFrom p (inlinePart x.1).2) := by
      cases x.1 with
      | emph ts => exact showFrom_esc p ts
      | link a b => exact showFrom_esc p b
    have hsame : sameDeco.text (escToks x.2) = escToks x.2 := text_same (fun _ => rfl) _
    rw [escMore, piecesMore, shownPieces, shownPieces] at hn
    simp only [hshow, html_empty, hsame] at hn
    rw [moreParts, showParts, showParts] at h
    by_cases he : showFrom p (inlinePart x.1).2 = []
    · rw [he] at hn h
      simp only [List.isEmpty_nil, if_true, List.nil_append] at hn
      rw [showFrom_prev hi, showFrom_esc, html_empty] at hn
      rw [List.map_nil, List.nil_append] at h
      by_cases he2 : showFrom ((inlinePart x.1).2.getLast?.or p) x.2 = []
      · rw [he2] at hn h
        rw [List.map_nil, List.nil_append] at h
        simp only [List.isEmpty_nil, if_true, List.nil_append] at hn
        rw [shownPieces_prev (q := x.2.getLast?.or ((inlinePart x.1).2.getLast?.or p))] at hn
        · exact ih _ h n hn hk
        · rw [last_esc]
          cases x.2.getLast? with
          | none => exact hi
          | some u => rfl
      · rw [if_neg (by simpa using he2)] at hn
        cases hn
        show (htmlText _).head? ≠ some '-'
        rw [Ne, html_head_dash]
        intro hd
        apply h
        cases hs : showFrom ((inlinePart x.1).2.getLast?.or p) x.2 with
        | nil => exact absurd hs he2
        | cons c s => rw [hs] at hd; cases hd; rfl
    · rw [if_neg (by simpa using he)] at hn
      exfalso
      cases hn
      revert hk
      show (inlineNode (escInline x.1)).kind = _ → _
      cases x.1 <;> exact fun h => (by cases h)

theorem shows_par (d : Nat) (f : Bool) (p : DocPar) (h : HtmlPar p) :
    Shows (teaHtmlNodes false true (shownPieces none (pieces id sameDeco (escPar p).shown))) (.block ['p'] d f .normal [])
      (.block ['p'] d f .normal (showParts (if p.marked then some (.plain '-') else none) (textParts p.text))) [] := by
  have hsame : ∀ ts, sameDeco.text ts = ts := text_same fun _ => rfl
  cases hm : p.marked with
  | true =>
    have hsh : (escPar p).shown = ⟨.plain '-' :: escToks p.text.first, escMore p.text.more⟩ := by
      unfold DocPar.shown
      rw [if_pos]
      · rfl
      · show p.hide = false ∧ 0 < p.level
        simpa [DocPar.marked] using hm
    rw [hsh, if_pos rfl]
    show Shows (teaHtmlNodes false true ((if (showFrom none (sameDeco.text (.plain '-' :: escToks p.text.first))).isEmpty then [] else
      [⟨.plain, showFrom none (sameDeco.text (.plain '-' :: escToks p.text.first)), []⟩]) ++
      shownPieces ((sameDeco.text (.plain '-' :: escToks p.text.first)).getLast?.or none) (piecesMore id sameDeco (escMore p.text.more)))) _ _ _
    have e : showFrom none (sameDeco.text (.plain '-' :: escToks p.text.first)) = '-' :: htmlText (showFrom (some (.plain '-')) p.text.first) := by
      rw [hsame, showFrom, showFrom_esc]; rfl
    rw [e, if_neg (by simp), textParts, showParts]
    show Shows (teaHtmlNode false true ⟨.plain, _, []⟩ ++ teaHtmlNodes false false _) _ _ _
    refine Shows.then (b := .block ['p'] d f .normal ((showFrom (some (.plain '-')) p.text.first).map fun c => (HStyle.normal, c))) ?_ ?_
    · have : teaHtmlNode false true ⟨.plain, '-' :: htmlText (showFrom (some (.plain '-')) p.text.first), []⟩ = htmlText (showFrom (some (.plain '-')) p.text.first) := by
        simp [teaHtmlNode]
      rw [this]
      exact shows_plain d f .normal [] (show_lines (h.lines (.normal, p.text.first) (by simp [textParts])))
    · rw [hsame, shownPieces_prev (q := p.text.first.getLast?.or (some (.plain '-')))]
      · exact shows_more d f p.text.more (fun y hy => h.lines y (by simp [textParts, hy])) h.targets _ _
      · have := last_esc (some (.plain '-')) p.text.first
        rw [← this]
        congr 1
        cases hc : escToks p.text.first with
        | nil => rfl
        | cons u us => rw [List.getLast?_cons_cons]; cases hq : (u :: us).getLast? with
          | none => simp at hq
          | some z => rfl
  | false =>
    have hsh : (escPar p).shown = escText p.text := by
      unfold DocPar.shown
      rw [if_neg]
      · rfl
      · show ¬ (p.hide = false ∧ 0 < p.level)
        intro g
        simp [DocPar.marked, g] at hm
    have hd := h.dash hm
    rw [hsh, if_neg (by simp), nodes_first]
    · exact shows_doc d f p.text h.lines h.targets
    · intro n hn hk
      rw [textParts, showParts] at hd
      have hn' : ((if (showFrom none (sameDeco.text (escToks p.text.first))).isEmpty then [] else
        [(⟨.plain, showFrom none (sameDeco.text (escToks p.text.first)), []⟩ : TeaNode)]) ++
        shownPieces ((sameDeco.text (escToks p.text.first)).getLast?.or none) (piecesMore id sameDeco (escMore p.text.more))).head? = some n := hn
      rw [hsame, showFrom_esc, html_empty] at hn'
      by_cases he : showFrom none p.text.first = []
      · rw [he] at hn' hd
        simp only [List.isEmpty_nil, if_true, List.nil_append] at hn'
        rw [shownPieces_prev (last_esc none p.text.first)] at hn'
        exact more_first _ _ hd n hn' hk
      · rw [if_neg (by simpa using he)] at hn'
        cases hn'
        show (htmlText _).head? ≠ some '-'
        rw [Ne, html_head_dash]
        intro hx
        apply hd
        cases hs : showFrom none p.text.first with
        | nil => exact absurd hs he
        | cons c s => rw [hs] at hx; cases hx; rfl

/-! ### Pages -/

theorem noTabs_html (c : List Char) : noTabs (htmlText c) = htmlText (noTabs c) := by
  induction c with
  | nil => rfl
  | cons x c ih =>
    have e : ∀ a b : List Char, noTabs (a ++ b) = noTabs a ++ noTabs b := by intro a b; simp [noTabs]
    have e2 : noTabs (x :: c) = noTabs [x] ++ noTabs c := e [x] c
    rw [htmlText, e, ih, e2, htmlText_append]
    congr 1
    rcases htmlChar_cases x with ⟨-, -, -, h⟩ | ⟨h, -⟩
    · by_cases hx : x = '\t'
      · subst hx; decide
      · have : noTabs [x] = [x] := by simp [noTabs, hx]
        rw [h, this, htmlText, h]; rfl
    · rcases h with rfl | rfl | rfl <;> decide

/-- The blocks, from any level on. -/
theorem shows_items (is : List DocItem) (h : ∀ p, .par p ∈ is → HtmlPar p) (bs : List (TeaBlock × List TeaNode)) (last : Nat) (first : Bool)
    (hv : bs.map teaView = itemsView id sameDeco last (is.map escItem)) :
    ∃ body, teaHtmlBody false last first bs = .ok body ∧ Shows body (.flow last false) (.flow 0 false) (seenPage first last is) := by
  induction is generalizing bs last first with
  | nil =>
    have : bs = [] := by
      cases bs with
      | nil => rfl
      | cons b bs => cases hv
    subst this
    refine ⟨_, rfl, ?_⟩
    have := shows_downs last 0
    rwa [Nat.zero_add] at this
  | cons i is ih =>
    cases bs with
    | nil =>
      exfalso
      rw [List.map_cons] at hv
      cases i with
      | par p => cases hv
      | special s => cases s <;> cases hv
    | cons b bs =>
      have hi : ∀ p, .par p ∈ is → HtmlPar p := fun p hp => h p (by simp [hp])
      obtain ⟨⟨k, lvl, nm, content⟩, ns⟩ := b
      rw [List.map_cons, List.map_cons] at hv
      cases i with
      | par p =>
        have hp := h p (by simp)
        rw [escItem, itemsView] at hv
        injection hv with hv1 hv2
        unfold teaView at hv1
        simp only [Prod.mk.injEq] at hv1
        obtain ⟨rfl, rfl, rfl, -, rfl⟩ := hv1
        obtain ⟨body, e, hb⟩ := ih hi bs p.level first hv2
        refine ⟨_, by
          rw [teaHtmlBody]
          simp only [teaHtmlBlock, Res.pure_eq, Res.ok_bind]
          rw [show (first && TeaKind.par != TeaKind.heading) = first by simp]
          simp only [escPar, if_neg (show ¬ TeaKind.par = TeaKind.heading by decide), e, Res.ok_bind]
          rfl, ?_⟩
        rw [seenPage]
        refine Shows.append (o := [_]) (b := .flow p.level false) ?_ hb
        simp only [List.append_assoc]
        refine Shows.then (shows_levels last p.level) ?_
        refine Shows.then (b := .flow p.level (p.marked || decide (last < p.level))) ?_ ?_
        · show Shows (if ¬ last < p.level ∧ p.hide = false ∧ p.level ≠ 0 then ['<', '/', 'l', 'i', '>', '<', 'l', 'i', '>'] else []) _ _ _
          by_cases hc : ¬ last < p.level ∧ p.hide = false ∧ p.level ≠ 0
          · rw [if_pos hc]
            have hm : p.marked = true := by simp [DocPar.marked, hc.2.1]; omega
            rw [hm, Bool.true_or]
            obtain ⟨n, hn⟩ : ∃ n, p.level = n + 1 := ⟨p.level - 1, by omega⟩
            rw [hn]
            exact Shows.then (s := ['<', '/', 'l', 'i', '>']) (.one (k := .closing ['l', 'i']) (by decide) rfl) (.one (k := .opening ['l', 'i'] none) (by decide) rfl)
          · rw [if_neg hc]
            have : (p.marked || decide (last < p.level)) = decide (last < p.level) := by
              by_cases hl : last < p.level
              · simp [hl]
              · have : p.marked = false := by
                  cases hm : p.marked with
                  | false => rfl
                  | true =>
                    simp [DocPar.marked] at hm
                    exact absurd ⟨hl, hm.1, by omega⟩ hc
                simp [hl, this]
            rw [this]
            exact .nil _
        · refine Shows.then (.one (k := .opening ['p'] none) (by decide) rfl) ?_
          refine Shows.then (shows_par _ _ p hp) ?_
          exact Shows.append (o := [_]) (q := []) (.one (k := .closing ['p']) (by decide) rfl) (shows_gap _ _)
      | special s =>
        cases s with
        | heading ts =>
          rw [escItem, escSpecial, itemsView] at hv
          injection hv with hv1 hv2
          unfold teaView at hv1
          simp only [Prod.mk.injEq] at hv1
          obtain ⟨rfl, rfl, rfl, hc, rfl⟩ := hv1
          rw [if_neg (by decide), showFrom_esc] at hc
          subst hc
          obtain ⟨body, e, hb⟩ := ih hi bs 0 false hv2
          refine ⟨_, by
            rw [teaHtmlBody]
            simp only [teaHtmlBlock, replaceIn_onChar, Res.pure_eq, Res.ok_bind]
            rw [show (first && TeaKind.heading != TeaKind.heading) = false by simp]
            simp only [if_pos, e, Res.ok_bind]
            rfl, ?_⟩
          rw [seenPage]
          refine Shows.append (o := [_]) (b := .flow 0 false) ?_ hb
          simp only [List.append_assoc]
          refine Shows.then (b := .flow 0 false) (by simpa using shows_levels last 0) ?_
          cases first with
          | true =>
            refine Shows.then (.one (k := .opening ['h', '1'] none) (by decide) rfl) ?_
            refine Shows.then (shows_lines _ _ _ _ _ _) ?_
            exact Shows.append (o := [_]) (q := []) (.one (k := .closing ['h', '1']) (by decide) rfl) (shows_gap _ _)
          | false =>
            refine Shows.then (.one (k := .opening ['h', '2'] none) (by decide) rfl) ?_
            refine Shows.then (shows_lines _ _ _ _ _ _) ?_
            exact Shows.append (o := [_]) (q := []) (.one (k := .closing ['h', '2']) (by decide) rfl) (shows_gap _ _)
        | code c =>
          rw [escItem, escSpecial, itemsView] at hv
          injection hv with hv1 hv2
          unfold teaView at hv1
          simp only [Prod.mk.injEq] at hv1
          obtain ⟨rfl, rfl, rfl, hc, rfl⟩ := hv1
          rw [if_neg (by decide), noTabs_html] at hc
          subst hc
          obtain ⟨body, e, hb⟩ := ih hi bs lvl first hv2
          refine ⟨_, by
            rw [teaHtmlBody]
            simp only [teaHtmlBlock, replaceIn_onChar, Res.pure_eq, Res.ok_bind]
            rw [show (first && TeaKind.code != TeaKind.heading) = first by simp]
            simp only [if_neg (show ¬ TeaKind.code = TeaKind.heading by decide), e, Res.ok_bind]
            rfl, ?_⟩
          rw [seenPage]
          refine Shows.append (o := [_]) (b := .flow lvl false) ?_ hb
          simp only [List.append_assoc]
          refine Shows.then (b := .flow lvl false) (by simpa using shows_levels lvl lvl) ?_
          refine Shows.then (s := ['<', 'p', 'r', 'e', '>', '<', 'c', 'o', 'd', 'e', '>']) (Shows.then (s := ['<', 'p', 'r', 'e', '>']) (.one (k := .opening ['p', 'r', 'e'] none) (by decide) rfl)
            (.one (k := .opening ['c', 'o', 'd', 'e'] none) (by decide) rfl)) ?_
          refine Shows.then (shows_lines _ _ _ _ _ _) ?_
          refine Shows.append (o := [_]) (q := []) (s := ['<', '/', 'c', 'o', 'd', 'e', '>', '<', '/', 'p', 'r', 'e', '>']) ?_ (shows_gap _ _)
          have he : (noTabs c).map (fun c => (HStyle.normal, c)) = c.map fun c => (HStyle.normal, if c = '\t' then ' ' else c) := by
            simp [noTabs]
          rw [he]
          exact Shows.append (o := [_]) (q := []) (s := ['<', '/', 'c', 'o', 'd', 'e', '>']) (.one (k := .closing ['c', 'o', 'd', 'e']) (by decide) rfl)
            (.one (k := .closing ['p', 'r', 'e']) (by decide) rfl)

/-- The first title of a page. -/
def firstTitle : List DocItem → List Char
  | [] => []
  | .special (.heading ts) :: _ => showFrom none ts
  | _ :: is => firstTitle is

theorem title_items (is : List DocItem) (bs : List (TeaBlock × List TeaNode)) (last : Nat) (hv : bs.map teaView = itemsView id sameDeco last (is.map escItem)) :
    teaHtmlTitle bs = htmlText (firstTitle is) := by
  induction is generalizing bs last with
  | nil =>
    cases bs with
    | nil => rfl
    | cons b bs => cases hv
  | cons i is ih =>
    cases bs with
    | nil =>
      exfalso
      rw [List.map_cons] at hv
      cases i with
      | par p => cases hv
      | special s => cases s <;> cases hv
    | cons b bs =>
      obtain ⟨⟨k, lvl, nm, content⟩, ns⟩ := b
      rw [List.map_cons, List.map_cons] at hv
      cases i with
      | par p =>
        rw [escItem, itemsView] at hv
        injection hv with hv1 hv2
        unfold teaView at hv1
        simp only [Prod.mk.injEq] at hv1
        obtain ⟨rfl, -⟩ := hv1
        exact ih bs _ hv2
      | special s =>
        cases s with
        | heading ts =>
          rw [escItem, escSpecial, itemsView] at hv
          injection hv with hv1 hv2
          unfold teaView at hv1
          simp only [Prod.mk.injEq] at hv1
          obtain ⟨rfl, -, -, hc, -⟩ := hv1
          rw [if_neg (by decide), showFrom_esc] at hc
          exact hc
        | code c =>
          rw [escItem, escSpecial, itemsView] at hv
          injection hv with hv1 hv2
          unfold teaView at hv1
          simp only [Prod.mk.injEq] at hv1
          obtain ⟨rfl, -⟩ := hv1
          exact ih bs _ hv2

/-- What is read of a page. -/
theorem html_page {d : DocPage} (hd : d.Ok) : ∃ bs, teaPage id (htmlText d.src) = some bs ∧ bs.map teaView = itemsView id sameDeco 0 (d.items.map escItem) := by
  obtain ⟨bs, h1, h2⟩ := C88_page_partial decorates_same (escPage d) (page_ok hd)
  rw [page_src hd] at h1
  rw [page_esc_items] at h2
  exact ⟨bs, h1, h2⟩

theorem html_run (o : TeaHtmlOptions) {d : DocPage} {bs : List (TeaBlock × List TeaNode)} {body : List Char} (h1 : teaPage id (htmlText d.src) = some bs)
    (h2 : teaHtmlBody (o.mode == 3) 0 true bs = .ok body) : teaHtmlRun o d.src = .ok (some (teaHtmlHead o bs ++ body ++ teaHtmlFoot o)) := by
  unfold teaHtmlRun
  rw [escape_html, Res.ok_bind, h1]
  simp only [teaHtml, h2, Res.ok_bind, Res.pure_eq]

/-- The HTML of a page is well formed, and shows what the page is: its titles, paragraphs and code, at their levels, with emphasis and links; it has the title of the page.
Partial: `C91_dash`, `C91_line`, `C91_quote`, `C91_target`, `C91_title`, and what is missing in `C88_page_partial`. -/
theorem C91_page_partial (o : TeaHtmlOptions) (ho : o.mode ≠ 3) (d : DocPage) (hd : d.Ok) (hp : ∀ p, .par p ∈ d.items → HtmlPar p) :
    ∃ start title body, teaHtmlRun o d.src = .ok (some (start ++ "<title>".toList ++ o.title ++ title ++ "</title>\n".toList ++ o.metas ++ "\n</head>\n<body>\n".toList ++ o.head ++ ['\n'] ++
        body ++ o.foot ++ "\n</body>\n</html>".toList)) ∧
      lexHtml .text title = some ((firstTitle d.items).map .char) ∧ readHtml body = some (seenPage true 0 d.items) := by
  obtain ⟨bs, h1, h2⟩ := html_page hd
  obtain ⟨body, h3, h4⟩ := shows_items d.items hp bs 0 true h2
  have hm : (o.mode == 3) = false := by simpa using ho
  refine ⟨teaHtmlStart o.mode ++ o.encoding ++ "\" />\n".toList, teaHtmlTitle bs, body, ?_, ?_, h4.read⟩
  · rw [html_run o h1 (by rw [hm]; exact h3)]
    unfold teaHtmlHead teaHtmlFoot
    rw [if_neg ho, if_neg ho]
    have e : "\" />\n<title>".toList = "\" />\n".toList ++ "<title>".toList := by decide +kernel
    rw [e]
    simp only [List.append_assoc]
  · rw [title_items d.items bs 0 h2]
    exact lex_text _

/-! ### What goes wrong -/

/-- A page of one paragraph. -/
def onePar (t : DocText) : DocPage := ⟨⟨[], [], some ⟨false, 0, t⟩⟩, []⟩

theorem one_par (t : DocText) (hd : (onePar t).Ok) :
    ∃ bs, teaPage id (htmlText (onePar t).src) = some bs ∧
      teaHtmlBody false 0 true bs = .ok (['<', 'p', '>'] ++ teaHtmlNodes false true (shownPieces none (pieces id sameDeco (escText t))) ++ ['<', '/', 'p', '>'] ++ ['\n', '\n']) := by
  obtain ⟨bs, h1, h2⟩ := html_page hd
  refine ⟨bs, h1, ?_⟩
  cases bs with
  | nil => cases h2
  | cons b bs =>
    cases bs with
    | cons b' bs => injection h2 with _ h2; cases h2
    | nil =>
      obtain ⟨⟨k, lvl, nm, content⟩, ns⟩ := b
      injection h2 with h2 _
      unfold teaView at h2
      simp only [Prod.mk.injEq] at h2
      obtain ⟨rfl, rfl, rfl, -, rfl⟩ := h2
      simp only [teaHtmlBody, teaHtmlBlock, Res.pure_eq, Res.ok_bind, escPar]
      rw [show (⟨false, 0, escText t⟩ : DocPar).shown = escText t by unfold DocPar.shown; simp]
      simp [teaHtmlLevels]

theorem shown_first (ts : List DocTok) (us : List TeaNode) (h : us = []) (hn : showFrom none ts ≠ []) :
    shownPieces none (pieces id sameDeco (escText ⟨ts, []⟩)) = ⟨.plain, htmlText (showFrom none ts), []⟩ :: us := by
  subst h
  show (if (showFrom none (sameDeco.text (escToks ts))).isEmpty then [] else [(⟨.plain, showFrom none (sameDeco.text (escToks ts)), []⟩ : TeaNode)]) ++ [] = _
  rw [text_same (fun _ => rfl), showFrom_esc, if_neg (by rw [html_empty]; simpa using hn), List.append_nil]

/-- VIOLATION: of a paragraph that begins with an escaped `-` it is left out. -/
theorem C91_dash (ts : List DocTok) (hd : (onePar ⟨.esc '-' :: ts, []⟩).Ok) (hl : .esc '\n' ∉ ts) :
    ∃ bs body, teaPage id (htmlText (onePar ⟨.esc '-' :: ts, []⟩).src) = some bs ∧ teaHtmlBody false 0 true bs = .ok body ∧
      readHtml body = some [⟨['p'], 0, false, (showFrom (some (.esc '-')) ts).map fun c => (.normal, c)⟩] := by
  obtain ⟨bs, h1, h2⟩ := one_par _ hd
  refine ⟨bs, _, h1, h2, Shows.read (f := false) ?_⟩
  rw [shown_first _ [] rfl (by simp [showFrom, showTok])]
  have e : teaHtmlNodes false true [⟨.plain, htmlText (showFrom none (.esc '-' :: ts)), []⟩] = htmlText (showFrom (some (.esc '-')) ts) := by
    have e2 : htmlText (showFrom none (.esc '-' :: ts)) = '-' :: htmlText (showFrom (some (.esc '-')) ts) := rfl
    rw [e2]
    simp [teaHtmlNodes, teaHtmlNode]
  rw [e]
  simp only [List.append_assoc]
  refine Shows.then (.one (k := .opening ['p'] none) (by decide) rfl) ?_
  refine Shows.then (shows_plain _ _ _ _ (show_lines hl)) ?_
  exact Shows.append (o := [_]) (q := []) (.one (k := .closing ['p']) (by decide) rfl) (shows_gap _ _)

/-- VIOLATION: an escaped end of line in a paragraph is shown as a blank. -/
theorem C91_line (ts : List DocTok) (hd : (onePar ⟨ts, []⟩).Ok) (hn : showFrom none ts ≠ []) (hh : (showFrom none ts).head? ≠ some '-') :
    ∃ bs body, teaPage id (htmlText (onePar ⟨ts, []⟩).src) = some bs ∧ teaHtmlBody false 0 true bs = .ok body ∧
      readHtml body = some [⟨['p'], 0, false, (showFrom none ts).map fun c => (.normal, if c = '\n' then ' ' else c)⟩] := by
  obtain ⟨bs, h1, h2⟩ := one_par _ hd
  refine ⟨bs, _, h1, h2, Shows.read (f := false) ?_⟩
  rw [shown_first _ [] rfl hn]
  have e : teaHtmlNodes false true [⟨.plain, htmlText (showFrom none ts), []⟩] = htmlText (showFrom none ts) := by
    rw [teaHtmlNodes]
    have : (htmlText (showFrom none ts)).head? ≠ some '-' := fun g => hh ((html_head_dash _).1 g)
    simp [teaHtmlNodes, teaHtmlNode, this]
  rw [e]
  simp only [List.append_assoc]
  refine Shows.then (.one (k := .opening ['p'] none) (by decide) rfl) ?_
  have := shows_text ['p'] 0 false .normal [] (showFrom none ts)
  have e2 : (showFrom none ts).map (blockChar ['p'] .normal) = (showFrom none ts).map fun c => (HStyle.normal, if c = '\n' then ' ' else c) := by
    refine List.map_congr_left fun c _ => ?_
    simp [blockChar]
  rw [e2] at this
  refine Shows.then this ?_
  exact Shows.append (o := [_]) (q := []) (.one (k := .closing ['p']) (by decide) rfl) (shows_gap _ _)

theorem one_link (a b : List DocTok) (hn : showFrom none b ≠ []) :
    teaHtmlNodes false true (shownPieces none (pieces id sameDeco (escText ⟨[], [(.link a b, [])]⟩))) =
      teaHtmlNode false true ⟨.link, htmlText (showFrom none b), htmlText (srcOf a)⟩ := by
  have e : shownPieces none (pieces id sameDeco (escText ⟨[], [(.link a b, [])]⟩)) =
      (if (showFrom none (escToks b)).isEmpty then [] else [(⟨.link, showFrom none (escToks b), srcOf (escToks a)⟩ : TeaNode)]) := by
    show _ ++ (_ ++ ([] ++ [])) = _
    rw [show ([] : List TeaNode) ++ [] = [] from rfl, List.append_nil]
    rfl
  rw [e, showFrom_esc, srcOf_esc, if_neg (by rw [html_empty]; simpa using hn)]
  show _ ++ [] = _
  rw [List.append_nil]

/-- VIOLATION: what escapes the characters of the target of a link is kept: the target is as it is written. -/
theorem C91_target (a b : List DocTok) (hd : (onePar ⟨[], [(.link a b, [])]⟩).Ok) (hn : showFrom none b ≠ []) (hl : .esc '\n' ∉ b) (hq : '"' ∉ srcOf a) :
    ∃ bs body, teaPage id (htmlText (onePar ⟨[], [(.link a b, [])]⟩).src) = some bs ∧ teaHtmlBody false 0 true bs = .ok body ∧
      readHtml body = some [⟨['p'], 0, false, (showFrom none b).map fun c => (.link (withExtension (srcOf a)), c)⟩] := by
  obtain ⟨bs, h1, h2⟩ := one_par _ hd
  refine ⟨bs, _, h1, h2, Shows.read (f := false) ?_⟩
  rw [one_link a b hn]
  simp only [List.append_assoc]
  refine Shows.then (.one (k := .opening ['p'] none) (by decide) rfl) ?_
  refine Shows.then (shows_link 0 false [] (show_lines hl) hq true) ?_
  exact Shows.append (o := [_]) (q := []) (.one (k := .closing ['p']) (by decide) rfl) (shows_gap _ _)

theorem value_quote (s t : List Char) (h : '"' ∈ s) : htmlValue none (htmlText s ++ t) = none := by
  induction s with
  | nil => cases h
  | cons c s ih =>
    rw [htmlText, List.append_assoc]
    rcases htmlChar_cases c with ⟨h1, h2, h3, e⟩ | ⟨hc, n, e, hr, hn⟩
    · rw [e, List.cons_append, List.nil_append, htmlValue]
      rw [if_neg h1]
      split
      · rfl
      · rename_i hx
        rcases List.mem_cons.1 h with rfl | h
        · exact absurd (.inr (.inr rfl)) hx
        · rw [ih h]; rfl
    · have hs : '"' ∈ s := by
        rcases List.mem_cons.1 h with rfl | h
        · rcases hc with h | h | h <;> cases h
        · exact h
      rw [e, List.append_assoc, List.cons_append, htmlValue]
      rw [if_pos rfl, List.cons_append, List.nil_append, value_ref [] n _ (fun h => absurd (hn _ h) (by decide)), List.nil_append, hr, ih hs]
      rfl

/-- VIOLATION: a quote in the target of a link ends it: what follows is not HTML. -/
theorem C91_quote (a b : List DocTok) (hd : (onePar ⟨[], [(.link a b, [])]⟩).Ok) (hn : showFrom none b ≠ []) (hq : '"' ∈ srcOf a) :
    ∃ bs body, teaPage id (htmlText (onePar ⟨[], [(.link a b, [])]⟩).src) = some bs ∧ teaHtmlBody false 0 true bs = .ok body ∧ readHtml body = none := by
  obtain ⟨bs, h1, h2⟩ := one_par _ hd
  refine ⟨bs, _, h1, h2, ?_⟩
  rw [one_link a b hn]
  have hg : '>' ∉ ['a', ' ', 'h', 'r', 'e', 'f', '=', '"'] ++ (htmlText (srcOf a) ++ teaExt false (htmlText (srcOf a))) ++ ['"'] := by
    rw [ext_html]
    simp [html_no_gt]
  have e : ∀ r, ['<', 'p', '>'] ++ teaHtmlNode false true ⟨.link, htmlText (showFrom none b), htmlText (srcOf a)⟩ ++ r =
      ['<', 'p', '>'] ++ ('<' :: ((['a', ' ', 'h', 'r', 'e', 'f', '=', '"'] ++ (htmlText (srcOf a) ++ teaExt false (htmlText (srcOf a))) ++ ['"']) ++ '>' ::
        (htmlText (showFrom none b) ++ ['<', '/', 'a', '>'] ++ r))) := by
    intro r
    simp [teaHtmlNode]
  have ht : htmlTag (['a', ' ', 'h', 'r', 'e', 'f', '=', '"'] ++ (htmlText (srcOf a) ++ teaExt false (htmlText (srcOf a))) ++ ['"']) = none := by
    unfold htmlTag
    rw [if_neg (by simp), if_neg (by simp), if_pos (by simp [List.isPrefixOf]), if_pos ⟨List.getLast?_concat .., by simp; omega⟩]
    have : ((['a', ' ', 'h', 'r', 'e', 'f', '=', '"'] ++ (htmlText (srcOf a) ++ teaExt false (htmlText (srcOf a))) ++ ['"']).drop 8).dropLast =
        htmlText (srcOf a) ++ teaExt false (htmlText (srcOf a)) := by
      simp [← List.append_assoc]
    rw [this, value_quote _ _ hq]
    rfl
  unfold readHtml
  rw [List.append_assoc (_ ++ _), e, lex_append (x := [.opening ['p'] none]) (by decide), lexHtml, if_pos rfl, lex_tag _ _ _ hg, List.nil_append, ht]
  rfl

/-- VIOLATION: what is given for `/T` is not escaped: with a `>` in it the title is not HTML. -/
theorem C91_title (o : TeaHtmlOptions) (u v : List Char) (ho : o.title = htmlText u ++ '>' :: v) (t : List Char) : lexHtml .text (o.title ++ t) = none := by
  rw [ho, List.append_assoc, lex_append (lex_text u), List.cons_append, lexHtml]
  simp

/-! ### Examples -/

theorem sample88_html : ∀ p, .par p ∈ samplePage88.items → HtmlPar p := by
  intro p hp
  have : p = samplePar ∨ p = ⟨false, 2, ⟨plains " an item\n".toList, []⟩⟩ ∨ p = ⟨true, 1, ⟨plains "no mark".toList, []⟩⟩ := by
    simpa [samplePage88, DocPage.items, itemsMore, DocRegion.list] using hp
  rcases this with rfl | rfl | rfl
  · refine ⟨by decide +kernel, ?_, ?_⟩
    · intro x hx
      have : x = (.normal, plains "The command ".toList) ∨ x = (.strong, plains "copy".toList) ∨ x = (.normal, plains " or ".toList) ∨
          x = (.link "xcopy.html".toList, plains "XCOPY".toList) ∨ x = (.normal, plains "  makes\n\tcopies ".toList ++ [.esc '{']) := by
        have e : textParts samplePar.text = [(.normal, plains "The command ".toList), (.strong, plains "copy".toList), (.normal, plains " or ".toList),
          (.link "xcopy.html".toList, plains "XCOPY".toList), (.normal, plains "  makes\n\tcopies ".toList ++ [.esc '{'])] := by decide +kernel
        rw [e] at hx
        simpa using hx
      rcases this with rfl | rfl | rfl | rfl | rfl <;> decide +kernel
    · intro x hx a b e t ht
      simp only [samplePar, List.mem_cons, List.not_mem_nil, or_false] at hx
      rcases hx with rfl | rfl
      · cases e
      · cases e
        obtain ⟨c, hc, rfl⟩ := List.mem_map.1 ht
        refine ⟨c, rfl, ?_⟩
        rintro rfl
        revert hc
        decide +kernel
  · refine ⟨by decide +kernel, ?_, fun x hx => (by cases hx)⟩
    intro x hx
    have : x = (.normal, plains " an item\n".toList) := by simpa [textParts, moreParts] using hx
    subst this
    decide +kernel
  · refine ⟨by decide +kernel, ?_, fun x hx => (by cases hx)⟩
    intro x hx
    have : x = (.normal, plains "no mark".toList) := by simpa [textParts, moreParts] using hx
    subst this
    decide +kernel

example : ∃ start title body, teaHtmlRun {} samplePage88.src = .ok (some (start ++ "<title>".toList ++ [] ++ title ++ "</title>\n".toList ++ [] ++ "\n</head>\n<body>\n".toList ++ [] ++ ['\n'] ++
      body ++ [] ++ "\n</body>\n</html>".toList)) ∧
    lexHtml .text title = some ((firstTitle samplePage88.items).map .char) ∧ readHtml body = some (seenPage true 0 samplePage88.items) :=
  C91_page_partial {} (by decide) _ sample88_ok sample88_html

example : firstTitle samplePage88.items = "Copy files".toList := by decide +kernel

example : (seenPage true 0 samplePage88.items).map (fun s => (s.tag, s.depth, s.fresh)) =
    [(['h', '1'], 0, false), (['p'], 0, false), (['p'], 2, true), (['c', 'o', 'd', 'e'], 2, false), (['p'], 1, false)] := by decide +kernel

example : readHtml "<ul><li>\n<p>a &lt; b <a href=\"x.html\">x</a></p></li></ul>".toList =
    some [⟨['p'], 1, true, ("a < b ".toList.map fun c => (.normal, c)) ++ [(.link "x.html".toList, 'x')]⟩] := by decide +kernel

example : readHtml "<ul><li><p>a</p></ul></li>".toList = none := by decide +kernel

example : withExtension "doc/page".toList = "doc/page.html".toList ∧ withExtension "a.b/page".toList = "a.b/page.html".toList ∧ withExtension "x.txt".toList = "x.txt".toList := by decide +kernel

theorem onePar_ok (t : DocText) (h1 : (⟨false, 0, t⟩ : DocPar).Ok) (h2 : (teaGap t.src).isNone = true) (h3 : pairB '{' '{' t.src = false) (h4 : pairB '$' '{' t.src = false) : (onePar t).Ok := by
  have e : (⟨false, 0, t⟩ : DocPar).src = t.src := by simp [DocPar.src]
  refine ⟨⟨⟨fun c hc => (by cases hc), fun x hx => (by cases hx), fun p hp => ?_⟩, ?_, ?_⟩, .nil⟩
  · cases hp
    exact ⟨h1, by rw [e]; exact not_hasGap h2⟩
  · show ¬ HasPair _ _ ((DocRegion.src ⟨[], [], some ⟨false, 0, t⟩⟩) ++ [])
    rw [List.append_nil]
    show ¬ HasPair _ _ ([] ++ [] ++ (⟨false, 0, t⟩ : DocPar).src)
    rw [e]
    exact not_hasPair h3
  · show ¬ HasPair _ _ ((DocRegion.src ⟨[], [], some ⟨false, 0, t⟩⟩) ++ [])
    rw [List.append_nil]
    show ¬ HasPair _ _ ([] ++ [] ++ (⟨false, 0, t⟩ : DocPar).src)
    rw [e]
    exact not_hasPair h4

example : (onePar ⟨.esc '-' :: plains "1 is less".toList, []⟩).Ok :=
  onePar_ok _ ⟨⟨by decide +kernel, fun x hx => (by cases hx)⟩, by decide +kernel, by decide +kernel, by decide +kernel, by decide +kernel⟩ (by decide +kernel) (by decide +kernel) (by decide +kernel)

example : (onePar ⟨plains "one".toList ++ [.esc '\n'] ++ plains "two".toList, []⟩).Ok :=
  onePar_ok _ ⟨⟨by decide +kernel, fun x hx => (by cases hx)⟩, by decide +kernel, by decide +kernel, by decide +kernel, by decide +kernel⟩ (by decide +kernel) (by decide +kernel) (by decide +kernel)

theorem sampleLink_ok (a : List DocTok) (h : (DocInline.link a (plains "x".toList)).Ok) (h1 : pairB '{' '{' (DocText.src ⟨[], [(.link a (plains "x".toList), [])]⟩) = false)
    (h2 : pairB '$' '{' (DocText.src ⟨[], [(.link a (plains "x".toList), [])]⟩) = false) (h3 : (teaGap (DocText.src ⟨[], [(.link a (plains "x".toList), [])]⟩)).isNone = true) :
    (onePar ⟨[], [(.link a (plains "x".toList), [])]⟩).Ok := by
  refine onePar_ok _ ⟨⟨⟨fun h => (by cases h), fun h => (by cases h)⟩, ?_⟩, rfl, by simp [DocText.src, moreSrc, DocInline.src, srcOf], by simp [DocText.src, moreSrc, DocInline.src, srcOf], fun h => (by cases h)⟩ h3 h1 h2
  intro x hx
  simp at hx
  subst hx
  exact ⟨h, fun h => (by cases h), fun h => (by cases h)⟩

example : (onePar ⟨[], [(.link (plains "a\"b".toList) (plains "x".toList), [])]⟩).Ok :=
  sampleLink_ok _ ⟨by decide +kernel, by decide +kernel, by decide +kernel, by decide +kernel, by decide +kernel⟩ (by decide +kernel) (by decide +kernel) (by decide +kernel)

example : (onePar ⟨[], [(.link (plains "a".toList ++ [.esc '|'] ++ plains "b".toList) (plains "x".toList), [])]⟩).Ok :=
  sampleLink_ok _ ⟨by decide +kernel, by decide +kernel, by decide +kernel, by decide +kernel, by decide +kernel⟩ (by decide +kernel) (by decide +kernel) (by decide +kernel)

end PBat
