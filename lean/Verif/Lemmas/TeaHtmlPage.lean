import Verif.Lemmas.TeaHtml
/-
Lemmas for C91: the source of a page with the characters of HTML replaced is the source of a page.
-/
namespace PBat
open Spec

def escTok : DocTok → List DocTok
  | .plain c => plains (htmlChar c)
  | .esc c => match htmlChar c with
    | [] => []
    | d :: r => .esc d :: plains r

def escToks : List DocTok → List DocTok
  | [] => []
  | t :: ts => escTok t ++ escToks ts

theorem srcOf_plains (s : List Char) : srcOf (plains s) = s := by
  induction s with
  | nil => rfl
  | cons c s ih =>
    show srcOf (.plain c :: plains s) = _
    rw [srcOf_cons, ih]
    rfl

theorem srcOf_escTok (t : DocTok) : srcOf (escTok t) = htmlText t.src := by
  cases t with
  | plain c => rw [escTok, srcOf_plains]; simp [DocTok.src, htmlText]
  | esc c =>
    show srcOf (match htmlChar c with | [] => [] | d :: r => .esc d :: plains r) = htmlText ['\\', c]
    have e : htmlText ['\\', c] = '\\' :: htmlChar c := by
      rw [htmlText, htmlText, htmlText, List.append_nil]; rfl
    rw [e]
    cases h : htmlChar c with
    | nil =>
      exfalso
      rcases htmlChar_cases c with ⟨-, -, -, e⟩ | ⟨-, n, e, -⟩ <;> rw [e] at h <;> cases h
    | cons d r => simp only [srcOf_cons, srcOf_plains]; rfl

theorem srcOf_esc (ts : List DocTok) : srcOf (escToks ts) = htmlText (srcOf ts) := by
  induction ts with
  | nil => rfl
  | cons t ts ih => rw [escToks, srcOf_append, srcOf_escTok, ih, srcOf_cons, htmlText_append]

/-- A character is left as it is, or becomes characters that are not blanks. -/
theorem escTok_cases (t : DocTok) : escTok t = [t] ∨
    (t.blank = false ∧ (∀ u ∈ escTok t, u.blank = false) ∧ escTok t ≠ [] ∧ ∀ p, showFrom p (escTok t) = htmlText (showTok p t)) := by
  cases t with
  | plain c =>
    rcases htmlChar_cases c with ⟨-, -, -, e⟩ | ⟨h, -⟩
    · left; rw [escTok, e]; rfl
    · right
      rcases h with rfl | rfl | rfl
      all_goals exact ⟨by decide, by decide, by decide, fun p => by rfl⟩
  | esc c =>
    rcases htmlChar_cases c with ⟨-, -, -, e⟩ | ⟨h, -⟩
    · left; rw [escTok, e]; rfl
    · right
      rcases h with rfl | rfl | rfl
      all_goals exact ⟨by decide, by decide, by decide, fun p => by rfl⟩

theorem escTok_same {c : Char} (h : HtmlNeutral c) : escTok (.plain c) = [.plain c] := by rw [escTok, htmlChar_neutral h]; rfl

theorem show_html {p : Option DocTok} {t : DocTok} (h : escTok t = [t]) : htmlText (showTok p t) = showTok p t := by
  have key : ∀ c, htmlChar c = [c] → htmlText [c] = [c] := fun c e => by rw [htmlText, e]; rfl
  cases t with
  | plain c =>
    have hc : htmlChar c = [c] := by
      rw [escTok] at h
      have := congrArg srcOf h
      rw [srcOf_plains] at this
      rw [this]; rfl
    rw [showTok]
    split
    · split
      · rfl
      · rfl
    · exact key c hc
  | esc c =>
    have hc : htmlChar c = [c] := by
      rcases htmlChar_cases c with ⟨-, -, -, e⟩ | ⟨h', -⟩
      · exact e
      · rcases h' with rfl | rfl | rfl <;> revert h <;> decide
    exact key c hc

theorem getLast_blank {p : Option DocTok} {us : List DocTok} (h : ∀ u ∈ us, u.blank = false) (hn : us ≠ []) : (us.getLast?.or p).all DocTok.blank = false := by
  rw [List.getLast?_eq_some_getLast hn, Option.some_or, Option.all_some]
  exact h _ (List.getLast_mem hn)

theorem last_esc (p : Option DocTok) (ts : List DocTok) : ((escToks ts).getLast?.or p).all DocTok.blank = (ts.getLast?.or p).all DocTok.blank := by
  have step : ∀ (a b : List DocTok) (p : Option DocTok), (a ++ b).getLast?.or p = b.getLast?.or (a.getLast?.or p) := by
    intro a b p
    rw [List.getLast?_append]
    cases b.getLast? <;> rfl
  induction ts generalizing p with
  | nil => rfl
  | cons t ts ih =>
    have e : (t :: ts).getLast?.or p = ts.getLast?.or (some t) := by
      have := step [t] ts p
      simpa using this
    rw [escToks, step, ih, e]
    have key : ∀ q : Option DocTok, q.all DocTok.blank = t.blank → (ts.getLast?.or q).all DocTok.blank = (ts.getLast?.or (some t)).all DocTok.blank := by
      intro q hq
      cases ts.getLast? with
      | none => exact hq
      | some u => rfl
    apply key
    rcases escTok_cases t with h | ⟨h1, h2, h3, -⟩
    · rw [h]; rfl
    · rw [getLast_blank h2 h3, h1]

theorem showFrom_esc (p : Option DocTok) (ts : List DocTok) : showFrom p (escToks ts) = htmlText (showFrom p ts) := by
  induction ts generalizing p with
  | nil => rfl
  | cons t ts ih =>
    rw [escToks, showFrom_append, showFrom, htmlText_append]
    rcases escTok_cases t with h | ⟨h1, h2, h3, h4⟩
    · rw [h, show_html h, ← ih]
      rw [showFrom, showFrom]
      simp
    · rw [h4, showFrom_prev (q := some t) (by rw [getLast_blank h2 h3, Option.all_some, h1]), ih]

theorem mem_escToks {c : Char} (hc : HtmlNeutral c) {ts : List DocTok} (h : NoPlain c ts) : NoPlain c (escToks ts) := by
  induction ts with
  | nil => exact h
  | cons t ts ih =>
    rw [without_cons] at h
    rw [escToks]
    refine without_append.2 ⟨?_, ih h.2⟩
    intro hm
    cases t with
    | plain d =>
      rw [escTok, plains, List.mem_map] at hm
      obtain ⟨x, hx, e⟩ := hm
      cases e
      exact h.1 (by rw [mem_htmlChar hc hx])
    | esc d =>
      rw [escTok] at hm
      rcases htmlChar_cases d with ⟨-, -, -, e⟩ | ⟨h', -⟩
      · rw [e] at hm
        simp [plains] at hm
      · have : ∀ x, DocTok.plain x ∈ escTok (.esc d) → x ∈ ['&', '<', '>', ';', 'a', 'm', 'p', 'l', 't', 'g'] := by
          intro x hx
          rcases h' with rfl | rfl | rfl
          all_goals
            simp [escTok, htmlChar, plains] at hx ⊢
            rcases hx with h | h | h | h <;> simp [h]
        exact hc (this c hm)

/-! ### Pairs and gaps -/

theorem pair_html {a b : Char} (ha : HtmlNeutral a) (hb : HtmlNeutral b) {s : List Char} (h : HasPair a b (htmlText s)) : HasPair a b s := by
  induction s with
  | nil => obtain ⟨x, y, e⟩ := h; cases x <;> cases e
  | cons c s ih =>
    rw [htmlText] at h
    rcases htmlChar_cases c with ⟨-, -, -, e⟩ | ⟨-, n, e, -, hn⟩
    · rw [e, List.cons_append, List.nil_append] at h
      obtain ⟨x, y, h⟩ := h
      cases x with
      | nil =>
        injection h with h1 h2
        subst h1
        have := (htmlText_head_is hb s).1 (by rw [h2]; rfl)
        exact hasPair_head this
      | cons d x =>
        injection h with h1 h2
        exact hasPair_cons (ih ⟨x, y, h2⟩)
    · have skip : ∀ (u v : List Char), (∀ z ∈ u, z ≠ a) → HasPair a b (u ++ v) → HasPair a b v := by
        intro u v hu hp
        induction u with
        | nil => exact hp
        | cons z u ihu =>
          obtain ⟨x, y, e⟩ := hp
          cases x with
          | nil => injection e with e1 _; exact absurd e1 (hu z (by simp))
          | cons d x =>
            injection e with _ e2
            exact ihu (fun w hw => hu w (by simp [hw])) ⟨x, y, e2⟩
      have := skip _ _ (by
        intro z hz
        rintro rfl
        have := mem_htmlChar ha hz
        subst this
        rw [htmlChar_neutral ha] at e
        cases n <;> cases e) h
      exact hasPair_cons (ih this)

/-- Blanks and an end of line. -/
def BlankLine (s : List Char) : Prop := ∃ b c, s = b ++ '\n' :: c ∧ ∀ x ∈ b, x = ' ' ∨ x = '\t'

theorem gap_cons {c : Char} {s : List Char} : HasGap (c :: s) ↔ (c = '\n' ∧ BlankLine s) ∨ HasGap s := by
  constructor
  · rintro ⟨a, b, d, e, hb⟩
    cases a with
    | nil =>
      injection e with e1 e2
      exact .inl ⟨e1, b, d, e2, hb⟩
    | cons x a =>
      injection e with e1 e2
      exact .inr ⟨a, b, d, e2, hb⟩
  · rintro (⟨rfl, b, d, rfl, hb⟩ | ⟨a, b, d, rfl, hb⟩)
    · exact ⟨[], b, d, rfl, hb⟩
    · exact ⟨c :: a, b, d, rfl, hb⟩

theorem blankLine_html {s : List Char} (h : BlankLine (htmlText s)) : BlankLine s := by
  induction s with
  | nil => obtain ⟨b, c, e, -⟩ := h; cases b <;> cases e
  | cons c s ih =>
    obtain ⟨b, d, e, hb⟩ := h
    cases b with
    | nil =>
      have := (htmlText_head_is (x := '\n') (by decide) (c :: s)).1 (by rw [e]; rfl)
      cases this
      exact ⟨[], s, rfl, fun x hx => by (cases hx)⟩
    | cons x b =>
      have hx := hb x (by simp)
      have := (htmlText_head_is (x := x) (blank_neutral hx) (c :: s)).1 (by rw [e]; rfl)
      cases this
      rw [htmlText, htmlChar_neutral (blank_neutral hx)] at e
      injection e with _ e
      obtain ⟨b', d', rfl, hb'⟩ := ih ⟨b, d, e, fun y hy => hb y (by simp [hy])⟩
      exact ⟨c :: b', d', rfl, fun y hy => by rcases List.mem_cons.1 hy with rfl | hy; exact hx; exact hb' y hy⟩

theorem gap_html {s : List Char} (h : HasGap (htmlText s)) : HasGap s := by
  induction s with
  | nil => obtain ⟨a, b, d, e, -⟩ := h; cases a <;> cases e
  | cons c s ih =>
    rw [htmlText] at h
    rw [gap_cons]
    rcases htmlChar_cases c with ⟨-, -, -, e⟩ | ⟨h', -⟩
    · rw [e, List.cons_append, List.nil_append, gap_cons] at h
      rcases h with ⟨h1, h2⟩ | h
      · exact .inl ⟨h1, blankLine_html h2⟩
      · exact .inr (ih h)
    · right
      apply ih
      rcases h' with rfl | rfl | rfl
      all_goals
        simp only [htmlChar] at h
        simpa [gap_cons] using h

theorem pairs_html {s : List Char} (h : BracePairs s) : BracePairs (htmlText s) := by
  have plain : ∀ (u : List Char) {v : List Char}, (∀ c ∈ u, c ≠ '\\' ∧ c ≠ '{' ∧ c ≠ '}') → BracePairs v → BracePairs (u ++ v) := by
    intro u v hu hv
    induction u with
    | nil => exact hv
    | cons c u ih =>
      obtain ⟨h1, h2, h3⟩ := hu c (by simp)
      exact .char h1 h2 h3 (ih fun d hd => hu d (by simp [hd]))
  induction h with
  | nil => exact .nil
  | @char c s h1 h2 h3 _ ih =>
    rw [htmlText]
    apply plain _ _ ih
    rcases htmlChar_cases c with ⟨-, -, -, e⟩ | ⟨h', -⟩
    · rw [e]
      intro d hd
      simp at hd
      subst hd
      exact ⟨h1, h2, h3⟩
    · rcases h' with rfl | rfl | rfl <;> decide
  | @esc c s _ ih =>
    rw [htmlText, htmlText]
    show BracePairs ('\\' :: (htmlChar c ++ htmlText s))
    rcases htmlChar_cases c with ⟨-, -, -, e⟩ | ⟨h', -⟩
    · rw [e]; exact .esc ih
    · rcases h' with rfl | rfl | rfl
      · exact .esc (plain ['a', 'm', 'p', ';'] (by decide) ih)
      · exact .esc (plain ['l', 't', ';'] (by decide) ih)
      · exact .esc (plain ['g', 't', ';'] (by decide) ih)
  | pair _ _ ih1 ih2 =>
    rw [List.cons_append, htmlText, htmlText_append, htmlText]
    exact .pair ih1 ih2

/-! ### Pages -/

def escInline : DocInline → DocInline
  | .emph ts => .emph (escToks ts)
  | .link a b => .link (escToks a) (escToks b)

def escMore : List (DocInline × List DocTok) → List (DocInline × List DocTok)
  | [] => []
  | x :: xs => (escInline x.1, escToks x.2) :: escMore xs

def escText (t : DocText) : DocText := ⟨escToks t.first, escMore t.more⟩

def escPar (p : DocPar) : DocPar := ⟨p.hide, p.level, escText p.text⟩

def escRegion (r : DocRegion) : DocRegion := ⟨r.lead, r.pars.map fun x => (escPar x.1, x.2), r.last.map escPar⟩

def escSpecial : DocSpecial → DocSpecial
  | .heading ts => .heading (escToks ts)
  | .code c => .code (htmlText c)

def escPage (d : DocPage) : DocPage := ⟨escRegion d.start, d.more.map fun x => (escSpecial x.1, escRegion x.2)⟩

def escItem : DocItem → DocItem
  | .par p => .par (escPar p)
  | .special s => .special (escSpecial s)

theorem inline_src (i : DocInline) : (escInline i).src = htmlText i.src := by
  cases i with
  | emph ts =>
    show '{' :: srcOf (escToks ts) ++ ['}'] = htmlText ('{' :: srcOf ts ++ ['}'])
    rw [srcOf_esc, htmlText_append, htmlText]
    rfl
  | link a b =>
    show '{' :: srcOf (escToks a) ++ '|' :: srcOf (escToks b) ++ ['}'] = htmlText ('{' :: srcOf a ++ '|' :: srcOf b ++ ['}'])
    rw [srcOf_esc, srcOf_esc, htmlText_append, htmlText_append, htmlText, htmlText]
    rfl

theorem more_src (xs : List (DocInline × List DocTok)) : moreSrc (escMore xs) = htmlText (moreSrc xs) := by
  induction xs with
  | nil => rfl
  | cons x xs ih => rw [escMore, moreSrc, moreSrc, htmlText_append, htmlText_append, inline_src, srcOf_esc, ih]

theorem text_src (t : DocText) : (escText t).src = htmlText t.src := by
  show srcOf (escToks t.first) ++ moreSrc (escMore t.more) = htmlText (srcOf t.first ++ moreSrc t.more)
  rw [srcOf_esc, more_src, htmlText_append]

theorem html_dashes (n : Nat) : htmlText (List.replicate n '-') = List.replicate n '-' :=
  htmlText_id fun c hc => by rw [List.mem_replicate] at hc; rw [hc.2]; decide

theorem par_src (p : DocPar) : (escPar p).src = htmlText p.src := by
  show (if p.hide then ['@'] else []) ++ List.replicate p.level '-' ++ (escText p.text).src = htmlText ((if p.hide then ['@'] else []) ++ List.replicate p.level '-' ++ p.text.src)
  rw [htmlText_append, htmlText_append, html_dashes, text_src]
  congr 2
  split <;> rfl

theorem inline_ok {i : DocInline} (h : i.Ok) : (escInline i).Ok := by
  cases i with
  | emph ts => exact ⟨mem_escToks (by decide) h.1, mem_escToks (by decide) h.2.1, mem_escToks (by decide) h.2.2⟩
  | link a b =>
    exact ⟨mem_escToks (by decide) h.1, mem_escToks (by decide) h.2.1, mem_escToks (by decide) h.2.2.1, mem_escToks (by decide) h.2.2.2.1, mem_escToks (by decide) h.2.2.2.2⟩

theorem text_ok {t : DocText} (h : t.Ok) : (escText t).Ok where
  first := ⟨mem_escToks (by decide) h.first.1, mem_escToks (by decide) h.first.2⟩
  more := by
    have hm := h.more
    show ∀ x ∈ escMore t.more, _
    generalize t.more = xs at hm
    induction xs with
    | nil => intro x hx; cases hx
    | cons y ys ih =>
      intro x hx
      rw [escMore, List.mem_cons] at hx
      rcases hx with rfl | hx
      · obtain ⟨h1, h2, h3⟩ := hm y (by simp)
        exact ⟨inline_ok h1, mem_escToks (by decide) h2, mem_escToks (by decide) h3⟩
      · exact ih (fun z hz => hm z (by simp [hz])) x hx

theorem head_space (s : List Char) : (htmlText s).head?.all docSpace = s.head?.all docSpace := by
  rw [htmlText_head]
  cases s with
  | nil => rfl
  | cons c s =>
    simp only [List.head?_cons, Option.map_some, Option.all_some]
    split
    · rename_i h; rcases h with rfl | rfl <;> rfl
    · rfl

theorem solid_html {s : List Char} (h : ∃ c ∈ s, docSpace c = false) : ∃ c ∈ htmlText s, docSpace c = false := by
  obtain ⟨c, hc, hs⟩ := h
  induction s with
  | nil => cases hc
  | cons d s ih =>
    rcases List.mem_cons.1 hc with rfl | hc
    · rcases htmlChar_cases c with ⟨-, -, -, e⟩ | ⟨-, n, e, -⟩
      · exact ⟨c, by rw [htmlText, e]; simp, hs⟩
      · exact ⟨'&', by rw [htmlText, e]; simp, rfl⟩
    · obtain ⟨x, hx, h⟩ := ih hc
      exact ⟨x, by rw [htmlText]; simp [hx], h⟩

theorem par_ok {p : DocPar} (h : p.Ok) : (escPar p).Ok where
  text := text_ok h.text
  solid := by rw [par_src, head_space]; exact h.solid
  noDash := by
    show (escText p.text).src.head? ≠ _
    rw [text_src]
    exact fun e => h.noDash ((htmlText_head_is (by decide) _).1 e)
  noAt := fun h1 h2 => by
    show (escText p.text).src.head? ≠ _
    rw [text_src]
    exact fun e => h.noAt h1 h2 ((htmlText_head_is (by decide) _).1 e)
  some := fun h1 => by
    show ∃ c ∈ (escText p.text).src, _
    rw [text_src]
    exact solid_html (h.some h1)

theorem gap_blank {w : List Char} (h : IsGap w) : htmlText w = w := by
  apply htmlText_blanks
  cases h with
  | mk hb hw =>
    intro c hc
    simp only [List.cons_append, List.mem_cons, List.mem_append] at hc
    rcases hc with rfl | hc | rfl | hc
    · rfl
    · rcases hb c hc with rfl | rfl <;> rfl
    · rfl
    · exact hw c hc

theorem region_src {r : DocRegion} (h : r.Ok) : (escRegion r).src = htmlText r.src := by
  have hp : ∀ ps : List (DocPar × List Char), (∀ x ∈ ps, IsGap x.2) → parsSrc (ps.map fun x => (escPar x.1, x.2)) = htmlText (parsSrc ps) := by
    intro ps
    induction ps with
    | nil => intro _; rfl
    | cons x ps ih =>
      intro hx
      rw [List.map_cons, parsSrc, parsSrc, htmlText_append, htmlText_append, par_src, gap_blank (hx x (by simp)), ih fun y hy => hx y (by simp [hy])]
  show r.lead ++ parsSrc (r.pars.map fun x => (escPar x.1, x.2)) ++ lastSrc (r.last.map escPar) = htmlText (r.lead ++ parsSrc r.pars ++ lastSrc r.last)
  rw [htmlText_append, htmlText_append, htmlText_blanks h.lead, hp r.pars fun x hx => (h.pars x hx).2.1]
  congr 1
  cases r.last with
  | none => rfl
  | some p => exact par_src p

theorem region_ok {r : DocRegion} (h : r.Ok) : (escRegion r).Ok where
  lead := h.lead
  pars := by
    intro x hx
    obtain ⟨y, hy, rfl⟩ := List.mem_map.1 hx
    obtain ⟨h1, h2, h3⟩ := h.pars y hy
    refine ⟨par_ok h1, h2, fun g => h3 ?_⟩
    apply gap_html
    rw [htmlText_append, ← par_src]
    exact g
  last := by
    intro p hp
    obtain ⟨q, hq, rfl⟩ := Option.map_eq_some_iff.1 hp
    obtain ⟨h1, h2⟩ := h.last q hq
    exact ⟨par_ok h1, fun g => h2 (gap_html (by rw [← par_src]; exact g))⟩

theorem regionOpen_ok {r : DocRegion} {next : Bool} (h : regionOpen r next) : regionOpen (escRegion r) next := by
  refine ⟨region_ok h.1, ?_⟩
  have e : (escRegion r).src ++ (if next then ['{'] else []) = htmlText (r.src ++ if next then ['{'] else []) := by
    rw [htmlText_append, region_src h.1]
    congr 1
    cases next <;> rfl
  rw [e]
  exact ⟨fun g => h.2.1 (pair_html (by decide) (by decide) g), fun g => h.2.2 (pair_html (by decide) (by decide) g)⟩

/-- After an escaped character there is no blank. -/
def NoEscBlank : List DocTok → Prop
  | [] => True
  | t :: ts => (∀ c x, t = .esc c → ts.head? = some (.plain x) → docSpace x = false) ∧ NoEscBlank ts

theorem noEscBlank_iff (ts : List DocTok) : NoEscBlank ts ↔ ∀ a c b x, ts = a ++ .esc c :: .plain x :: b → docSpace x = false := by
  induction ts with
  | nil => exact ⟨fun _ a c b x e => (by cases a <;> cases e), fun _ => trivial⟩
  | cons t ts ih =>
    rw [NoEscBlank, ih]
    constructor
    · rintro ⟨h1, h2⟩ a c b x e
      cases a with
      | nil => injection e with e1 e2; exact h1 c x e1 (by rw [e2]; rfl)
      | cons y a => injection e with e1 e2; exact h2 a c b x e2
    · intro h
      refine ⟨fun c x e1 e2 => ?_, fun a c b x e => h (t :: a) c b x (by rw [e]; rfl)⟩
      cases ts with
      | nil => cases e2
      | cons u us => cases e2; exact h [] c us x (by rw [e1]; rfl)

theorem noEscBlank_esc {ts : List DocTok} (h : NoEscBlank ts) : NoEscBlank (escToks ts) := by
  have plain : ∀ (u : List Char) {v : List DocTok}, NoEscBlank v → NoEscBlank (plains u ++ v) := by
    intro u v hv
    induction u with
    | nil => exact hv
    | cons c u ih => exact ⟨fun d x e => (by cases e), ih⟩
  induction ts with
  | nil => trivial
  | cons t ts ih =>
    rw [escToks]
    have ih' := ih h.2
    cases t with
    | plain c => exact plain _ ih'
    | esc c =>
      rcases htmlChar_cases c with ⟨-, -, -, e⟩ | ⟨h', -⟩
      · rw [escTok, e]
        refine ⟨fun d x _ hx => ?_, ih'⟩
        replace hx : (escToks ts).head? = some (.plain x) := hx
        cases ts with
        | nil => cases hx
        | cons u us =>
          cases u with
          | esc d =>
            exfalso
            rw [escToks, escTok] at hx
            rcases htmlChar_cases d with ⟨-, -, -, e⟩ | ⟨-, n, e, -⟩ <;> rw [e] at hx <;> cases hx
          | plain d =>
            have hd := h.1 c d rfl rfl
            rw [escToks, escTok] at hx
            rcases htmlChar_cases d with ⟨-, -, -, e⟩ | ⟨-, n, e, -⟩
            · rw [e] at hx; cases hx; exact hd
            · rw [e] at hx; cases hx; rfl
      · rcases h' with rfl | rfl | rfl
        · exact ⟨fun d x _ hx => (by cases hx; rfl), plain ['a', 'm', 'p', ';'] ih'⟩
        · exact ⟨fun d x _ hx => (by cases hx; rfl), plain ['l', 't', ';'] ih'⟩
        · exact ⟨fun d x _ hx => (by cases hx; rfl), plain ['g', 't', ';'] ih'⟩

theorem special_ok {s : DocSpecial} (h : s.Ok) : (escSpecial s).Ok := by
  cases h with
  | @heading ts h1 h2 h3 h4 =>
    refine .heading (mem_escToks (by decide) h1) ?_ ((noEscBlank_iff _).1 (noEscBlank_esc ((noEscBlank_iff _).2 h3))) ?_
    · rw [srcOf_esc]
      intro g
      apply h2
      apply pair_html (by decide) (by decide)
      rw [htmlText_append]
      exact g
    · rw [showFrom_esc]; exact solid_html h4
  | code h1 h2 => exact .code (pairs_html h1) (solid_html h2)

theorem special_src (s : DocSpecial) : (escSpecial s).src = htmlText s.src := by
  cases s with
  | heading ts =>
    show '{' :: '{' :: srcOf (escToks ts) ++ ['}', '}'] = htmlText ('{' :: '{' :: srcOf ts ++ ['}', '}'])
    rw [srcOf_esc, htmlText_append, htmlText, htmlText]
    rfl
  | code c =>
    show '$' :: '{' :: htmlText c ++ ['}'] = htmlText ('$' :: '{' :: c ++ ['}'])
    rw [htmlText_append, htmlText, htmlText]
    rfl

theorem page_ok {d : DocPage} (h : d.Ok) : (escPage d).Ok where
  start := by
    show regionOpen (escRegion d.start) (!(d.more.map _).isEmpty)
    rw [List.isEmpty_map]
    exact regionOpen_ok h.start
  more := by
    have hm := h.more
    show MoreOk (d.more.map _)
    generalize d.more = xs at hm
    induction hm with
    | nil => exact .nil
    | @cons x xs h1 h2 _ ih =>
      rw [List.map_cons]
      refine .cons (special_ok h1) ?_ ih
      rw [List.isEmpty_map]
      exact regionOpen_ok h2

theorem page_src {d : DocPage} (h : d.Ok) : (escPage d).src = htmlText d.src := by
  show (escRegion d.start).src ++ pageMore (d.more.map _) = htmlText (d.start.src ++ pageMore d.more)
  rw [htmlText_append, region_src h.start.1]
  congr 1
  have hm := h.more
  generalize d.more = xs at hm
  induction hm with
  | nil => rfl
  | @cons x xs h1 h2 _ ih => rw [List.map_cons, pageMore, pageMore, htmlText_append, htmlText_append, special_src, region_src h2.1, ih]

theorem region_list (r : DocRegion) : (escRegion r).list = r.list.map escPar := by
  show (r.pars.map _).map Prod.fst ++ (r.last.map escPar).toList = (r.pars.map Prod.fst ++ r.last.toList).map escPar
  rw [List.map_append, List.map_map, List.map_map]
  congr 1
  cases r.last <;> rfl

theorem page_esc_items (d : DocPage) : (escPage d).items = d.items.map escItem := by
  have key : ∀ l : List DocPar, (l.map escPar).map DocItem.par = (l.map DocItem.par).map escItem := by
    intro l
    rw [List.map_map, List.map_map]
    rfl
  show (escRegion d.start).list.map DocItem.par ++ itemsMore (d.more.map _) = _
  rw [DocPage.items, List.map_append, region_list, key]
  congr 1
  generalize d.more = xs
  induction xs with
  | nil => rfl
  | cons x xs ih =>
    rw [List.map_cons, itemsMore, itemsMore, ih, region_list, key, List.map_append]
    rfl

end PBat
