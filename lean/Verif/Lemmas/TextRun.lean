import Verif.Spec.TextRun
import Verif.Lemmas.Indent
import Verif.Lemmas.Program
import Verif.Lemmas.IfRun
/-
Lemmas for C113.
-/
namespace PBat.Prog
open PBat PBat.Spec PBat.Spec.Prog PBat.Spec.Txt

variable {ν W τ : Type}

/-! ### The text of a command -/

theorem skipAllBlanks_lead {w r : List Char} (hw : Lead w) (hr : Bare r) : skipAllBlanks (w ++ r) = r := by
  induction w with
  | nil =>
    cases r with
    | nil => rfl
    | cons c r =>
      obtain ⟨h1, h2⟩ := hr c rfl
      rw [List.nil_append, skipAllBlanks, if_neg]
      simp only [Bool.or_eq_true, beq_iff_eq, not_or]
      exact ⟨fun h => h1 ((isDelim_iff c).1 h), h2⟩
  | cons c w ih =>
    rw [List.cons_append, skipAllBlanks, if_pos, ih fun d hd => hw d (by simp [hd])]
    simp only [Bool.or_eq_true, beq_iff_eq]
    rcases hw c (by simp) with h | h
    · exact .inl ((isDelim_iff c).2 h)
    · exact .inr h

theorem skipAllBlanks_bare (s : List Char) : Bare (skipAllBlanks s) := by
  induction s with
  | nil => intro c h; cases h
  | cons d s ih =>
    rw [skipAllBlanks]
    split
    · exact ih
    · next h =>
      intro c hc
      cases hc
      simp only [Bool.or_eq_true, beq_iff_eq, not_or] at h
      exact ⟨fun hb => h.1 ((isDelim_iff _).2 hb), h.2⟩

theorem textCmd_lead (h : Host ν W τ) {w r : List Char} (hw : Lead w) (hr : Bare r) :
    h.textCmd (w ++ r) = if r.head? = some '(' then .simple r else h.cls r := by
  unfold Host.textCmd
  rw [skipAllBlanks_lead hw hr]

theorem textCmd_indent (h : Host ν W τ) {w : List Char} (hw : ∀ c ∈ w, Blank c) (t : List Char) : h.textCmd (w ++ t) = h.textCmd t := by
  unfold Host.textCmd
  rw [skipAllBlanks_indent hw]

theorem usual_look {h : Host ν W τ} {c : List Char} (hu : Usual h c) : (h.textCmd c).look = false := by
  obtain ⟨w, e, hw⟩ := skipAllBlanks_split c
  unfold Host.textCmd
  split
  · rfl
  · next hn =>
    rcases (hu w _ e hw (skipAllBlanks_bare c)).resolve_left hn with h1 | ⟨i, h1⟩ <;> rw [h1] <;> rfl

theorem skipAllBlanks_dropped (c : List Char) : skipAllBlanks c = bare c := by
  induction c with
  | nil => rfl
  | cons d c ih =>
    unfold bare at ih ⊢
    rw [skipAllBlanks]
    by_cases hd : Blank d ∨ d = '@'
    · rw [List.dropWhile_cons_of_pos (by simpa using hd), if_pos (by simpa [isDelim_iff] using hd), ih]
    · rw [List.dropWhile_cons_of_neg (by simpa using hd), if_neg (by simpa [isDelim_iff] using hd)]

theorem textCmd_kind (h : Host ν W τ) (c : List Char) : h.textCmd c = kind h c := by
  unfold Host.textCmd kind
  rw [skipAllBlanks_dropped]

theorem bare_paren (r : List Char) : Bare ('(' :: r) := by
  intro c hc
  cases hc
  exact ⟨by unfold Blank; decide, by decide⟩

theorem unindent_split (s : List Char) : ∃ w, s = w ++ unindent s ∧ ∀ c ∈ w, Blank c := by
  induction s with
  | nil => exact ⟨[], rfl, by simp⟩
  | cons c s ih =>
    by_cases hc : Blank c
    · obtain ⟨w, h1, h2⟩ := ih
      refine ⟨c :: w, ?_, by simpa using ⟨hc, h2⟩⟩
      rw [unindent, List.dropWhile_cons_of_pos (by simpa using hc), List.cons_append, List.cons.injEq]
      exact ⟨rfl, h1⟩
    · refine ⟨[], ?_, by simp⟩
      rw [unindent, List.dropWhile_cons_of_neg (by simpa using hc)]
      rfl

theorem cmdText_plain (h : Host ν W τ) (n : Nat) : PlainRc (h.cmdText n) := by
  intro ty r c rest st hc
  cases n with
  | zero => rw [Host.cmdText, Host.cmdText]; rfl
  | succ n =>
    cases c with
    | simple t =>
      rw [Host.cmdText, Host.cmdText]
      split
      · split
        · rfl
        · simp only
          split <;> rfl
        · rfl
      · rfl
    | block lines =>
      rw [Host.cmdText.eq_def, Host.cmdText.eq_def]
      exact runCmd_plain h.base (n + 1) ty r _ rest st hc
    | iff => cases hc
    | loop => cases hc
    | call i =>
      rw [Host.cmdText, Host.cmdText]
      cases h.base.enter i st.world with
      | error => rfl
      | ok x =>
        simp only
        split <;> rfl

/-! ### The commands of a line -/

/-- The pipelines as parts of a line. -/
def textParts (h : Host ν W τ) (l : List (Link × Piece × List Piece)) : List (Link × Part (List Char) ν) :=
  l.map fun x => (x.1, ((x.2.1.1, h.textCmd x.2.1.2), x.2.2.map fun d => (d.1, h.textCmd d.2)))

theorem tail_texts (h : Host ν W τ) (rd : List Char → Piece) (l : SrcLine) :
    ((NodeType.none, (rd l.first.1).1, h.textCmd (rd l.first.1).2) ::
      l.tail.map fun p => (nodeOf p.1, (rd p.2).1, h.textCmd (rd p.2).2)) = lineNodes (textParts h (pieces rd l)) := by
  obtain ⟨⟨c, ds⟩, more⟩ := l
  simp only [SrcLine.tail, pipes, lineNodes, textParts, pieces, List.map_cons, List.flatMap_cons, List.map_append, List.map_map, partNodes, linkTy,
    List.cons_append]
  congr 2
  simp only [List.flatMap_map, List.map_flatMap]
  congr 1
  funext x
  obtain ⟨o, c, ds⟩ := x
  simp only [List.map_cons, List.map_map, Function.comp_apply]
  congr 1
  cases o <;> rfl

theorem nodes_text (h : Host ν W τ) (w : W) {m t : List Char} {l : SrcLine} {items : List Char → List RedirItem}
    (hm : unindent m = unindent t) (ht : unindent t = l.text) (hc : ∀ r, unindent t ≠ ':' :: r) (hj : WellFormed l.first.1 l.tail)
    (hi : ∀ c ∈ l.cmds, RedirCommand nameSpecial c (items c) ∧ Once (items c)) :
    h.textNodes w m = lineNodes (textParts h (pieces (fun c => (redirs (h.full w) (items c), textOf (items c))) l)) := by
  obtain ⟨v, hv, hb⟩ := unindent_split m
  rw [hm] at hv
  have hcolon : (skipBlanks m).head? ≠ some ':' := by
    intro hh
    obtain ⟨v', r, he, hv'⟩ := skipBlanks_head _ _ hh
    have h1 : unindent m = ':' :: r := by
      rw [he, unindent_append hv', unindent, List.dropWhile_cons_of_neg (by simp; unfold Blank; decide)]
    exact hc r (by rw [← hm, h1])
  have hp := C53_line_partial (h.delayed w) (h.loops w) (h.mods w) (fun n => .ok (h.vars w n)) (h.full w) l.first.1 l.tail hj items
    (by
      intro s hs
      apply fun hs => (hi s hs).1
      simpa [SrcLine.cmds] using hs)
  rw [if_pos ⟨(hi _ (by simp [SrcLine.cmds])).2, by
    intro p hp
    refine (hi p.2 ?_).2
    simp only [SrcLine.cmds, List.mem_cons, List.mem_map]
    exact .inr ⟨p, hp, rfl⟩⟩] at hp
  have hp2 : parseLine (h.delay w) (h.full w) l.text = _ := hp
  rw [← ht] at hp2
  have hp' := parseLine_indent (h.delay w) (h.full w) hb hp2
  rw [← hv] at hp'
  unfold Host.textNodes
  rw [if_neg hcolon, hp', ← tail_texts]
  simp only [List.map_cons, List.map_map, redirs_eq, textCmd_indent h hb]
  congr 1
  apply List.map_congr_left
  intro p _
  simp only [Function.comp_apply, redirs_eq]

theorem pipeLoop_texts (h : Host ν W τ) (ds : List Piece) :
    ∀ (ty : NodeType) (inp : Option τ) (c : Piece) (st : St (W × Script) τ), st.abort = .no → (∀ d ∈ c :: ds, Usual h d.2) →
      ∃ front ty', pipeLoop h.base inp (ty, c.1, h.textCmd c.2) (ds.map fun d => (NodeType.pipe, d.1, h.textCmd d.2)) st =
        (front, (ty', (feed h inp c ds st.world).2.1.1, h.textCmd (feed h inp c ds st.world).2.1.2), [],
          (feed h inp c ds st.world).1, { st with world := (feed h inp c ds st.world).2.2 }) := by
  induction ds with
  | nil =>
    intro ty inp c st _ _
    exact ⟨[], ty, rfl⟩
  | cons d ds ih =>
    intro ty inp c st ha hu
    obtain ⟨front, ty', h1⟩ := ih .pipe (some (h.base.pipe st.world).2) d
      { st with world := h.base.spawn c.1 (h.textCmd c.2) inp (h.base.pipe st.world).2 st.abort (h.base.pipe st.world).1 } ha
      (fun d hd => hu d (List.mem_cons_of_mem _ hd))
    refine ⟨(ty, c.1, h.textCmd c.2) :: front, ty', ?_⟩
    simp only [List.map_cons, pipeLoop, if_true]
    rw [h1]
    simp only [feed, textCmd_kind h c.2, ha]

theorem feed_mem (h : Host ν W τ) (ds : List Piece) : ∀ inp c x, (feed h inp c ds x).2.1 ∈ c :: ds := by
  induction ds with
  | nil => intro inp c x; simp [feed]
  | cons d ds ih =>
    intro inp c x
    rw [feed]
    exact List.mem_cons_of_mem _ (ih _ _ _)

theorem execOutput_flags {ι : Type} (sys : Sys ι ν W τ) (r : Redir ι) (st : St W τ) (h1 : r.errToOut = false) (h2 : r.outToErr = false)
    (ho : st.io.outOwn = true) (he : st.io.errOut = false) :
    (execOutput sys r st).io.outOwn = true ∧ (execOutput sys r st).io.errOut = false := by
  have key : ∀ (f : Option (ι × Option Bool)) (fd : Fd) (st : St W τ), st.io.outOwn = true → st.io.errOut = false →
      (openRedir sys f fd st).io.outOwn = true ∧ (openRedir sys f fd st).io.errOut = false := by
    intro f fd st ho he
    unfold openRedir
    cases f with
    | none => exact ⟨ho, he⟩
    | some f =>
      obtain ⟨name, mode⟩ := f
      simp only
      cases hx : sys.openFile name mode st.world with
      | mk w t =>
        cases t with
        | none => exact ⟨ho, he⟩
        | some t => cases fd <;> simp [Io.openOutput, Io.dupTo, ho, he]
  unfold execOutput
  simp only [h1, h2, Bool.false_eq_true, if_false]
  obtain ⟨a1, a2⟩ := key (r.input.map (fun f => (f, none))) .inp st ho he
  obtain ⟨b1, b2⟩ := key (r.output.map (fun f => (f.1, some f.2))) .out _ a1 a2
  exact key (r.error.map (fun f => (f.1, some f.2))) .err _ b1 b2

theorem plain_streams {io : Io τ} (ho : io.outOwn = true) (he : io.errOut = false) : io.streams = (io.inp, io.out, io.err) := by
  simp [Io.streams, ho, he]

/-- One pipeline. -/
theorem unit_run (h : Host ν W τ) (n : Nat) {p : Piece × List Piece} {s : τ × τ × τ} {x x' : W × Script} {e e' : Int} {a : Abort} (hu : Regular h p)
    (hc : ∀ ty r' rest (io : Io τ), io.streams = (before h p s x).2.1 →
      (Nests h (before h p s x).1 → io.outOwn = true ∧ io.errOut = false) →
      h.cmdText n (ty, r', h.textCmd (before h p s x).1) rest ⟨(before h p s x).2.2, e, .no, io⟩ =
        some ((ty, r', h.textCmd (before h p s x).1) :: rest, true, ⟨x', e', a, io⟩))
    {io : Io τ} (ho : io.outOwn = true) (he : io.errOut = false) (hs : io.streams = s) :
    (runNodes h.base (h.cmdText n) (partNodes .none ((p.1.1, h.textCmd p.1.2), p.2.map fun d => (d.1, h.textCmd d.2)))
      ⟨x, e, .no, io⟩).map (·.2) = some ⟨x', e', a, io⟩ := by
  obtain ⟨c, ds⟩ := p
  obtain ⟨front, ty', hpl⟩ := pipeLoop_texts h ds .none none c ⟨x, e, .no, io.setLock true⟩ rfl (fun d hd => (hu d hd).1)
  simp only [before] at hc
  have hmem := feed_mem h ds none c x
  generalize hfd : feed h none c ds x = f at *
  obtain ⟨inp, c', w'⟩ := f
  simp only at hpl hc hmem
  have hlook : (h.textCmd c.2).look = false := usual_look (hu c (by simp)).1
  obtain ⟨-, hm⟩ := hu c' hmem
  have hlaunch : launch h.base true (.none, c.1, h.textCmd c.2) (ds.map fun d => (NodeType.pipe, d.1, h.textCmd d.2))
      ⟨x, e, .no, io.setLock true⟩ = (front, (ty', c'.1, h.textCmd c'.2), [], ⟨w', e, .no, fed inp (io.setLock true)⟩) := by
    unfold launch
    rw [hpl]
    cases inp <;> rfl
  have hlk := setLock_io io true
  have hfd := fed_io inp (io.setLock true)
  have ho' : (fed inp (io.setLock true)).outOwn = true := by rw [hfd.1, hlk.1, ho]
  have he' : (fed inp (io.setLock true)).errOut = false := by rw [hfd.2.1, hlk.2.1, he]
  have hC := C45_streams_partial h.base c'.1 ⟨w', e, .no, fed inp (io.setLock true)⟩ ho' he'
  have hR := execOutput_rest h.base c'.1 ⟨w', e, .no, fed inp (io.setLock true)⟩
  have hsl : (fed inp (io.setLock true)).streams = (inp.getD s.1, s.2) := by
    rw [plain_streams ho' he', ← hs, plain_streams ho he, hfd.2.2.1, hfd.2.2.2.1, hfd.2.2.2.2, hlk.2.2.1, hlk.2.2.2.1, hlk.2.2.2.2]
  have hop : ∀ f w, opened h.base f w = tryOpen h.base f w := fun f w => by cases f <;> rfl
  simp only [hop, hsl] at hC
  have hst : execOutput h.base c'.1 ⟨w', e, .no, fed inp (io.setLock true)⟩ =
      ⟨(enter h.base c'.1 (inp.getD s.1, s.2) w').1, e, .no, (execOutput h.base c'.1 ⟨w', e, .no, fed inp (io.setLock true)⟩).io⟩ := by
    have h1 := hC.2
    revert hR h1
    generalize execOutput h.base c'.1 ⟨w', e, .no, fed inp (io.setLock true)⟩ = st
    obtain ⟨sw, se, sa, si⟩ := st
    rintro ⟨h1, h2⟩ h3
    simp only at h1 h2 h3
    rw [h1, h2, h3]
    rfl
  have hstr : (execOutput h.base c'.1 ⟨w', e, .no, fed inp (io.setLock true)⟩).io.streams =
      (enter h.base c'.1 (inp.getD s.1, s.2) w').2 := by
    rw [hC.1]
    simp only [Spec.redirected, enter]
  have hrun := hc ty' c'.1 [] (execOutput h.base c'.1 ⟨w', e, .no, fed inp (io.setLock true)⟩).io hstr (by
    intro hop
    rcases hm with hm | hm
    · exact execOutput_flags h.base _ _ hm.1 hm.2 ho' he'
    · exact absurd hop hm)
  rw [← hst] at hrun
  have hpop := execOutput_pop h.base c'.1 ⟨w', e, .no, fed inp (io.setLock true)⟩
  have hpop2 : (fed inp (io.setLock true)).popUntilLock = (io.setLock true).popUntilLock := by
    cases inp with
    | none => rfl
    | some t => exact Io.popUntilLock_openD' _ _ _
  simp only [partNodes, List.map_map, Function.comp_def]
  rw [runNodes.eq_2]
  simp only [skips, hlook, Bool.not_false, Bool.and_self, hlaunch, ne_eq, not_true_eq_false, decide_false, Bool.or_self,
    Bool.false_eq_true, if_false, hrun, Bool.not_true, runNodes]
  rw [Option.map_some]
  congr 1
  have := closeLine_io (st := (⟨x', e', a, (execOutput h.base c'.1 ⟨w', e, .no, fed inp (io.setLock true)⟩).io⟩ : St (W × Script) τ))
    (io := io) (hpop.trans hpop2)
  unfold closeLine at this ⊢
  simp only at this ⊢
  rw [this]

/-! ### IF -/

theorem governs_body {strict : Bool} {s c : List Char} (h : Governs strict s c) :
    ∃ e, ifBody (skipBlanks s) = .ok (some (c, e)) ∧ ifBehind e = [] := by
  cases h with
  | @block w b v hw hb hv =>
    refine ⟨')' :: v, ?_, ?_⟩
    · have hm : ¬ Blank '(' := by unfold Blank; decide
      rw [skipBlanks_append hw, skipBlanks_stop hm]
      have := nextBlock_inside (w := []) (by simp) hb v
      rw [List.nil_append] at this
      simp [ifBody, this]
    · have := ifBehind_blanks hv []
      rwa [List.append_nil] at this
  | @command w g l hw hl hh =>
    refine ⟨[], ?_, rfl⟩
    rw [skipBlanks_append hw, skipBlanks_none fun c hc => (hh c hc).1]
    have hp : c.head? ≠ some '(' := fun e => (hh _ e).2 rfl
    unfold ifBody
    rw [if_neg hp]
    unfold blockLine
    rw [end_line hl]
    show Res.ok _ = _
    simp [hp]

/-- What IF does with its text. -/
theorem if_code {strict : Bool} {s yes : List Char} {no : Option (List Char)} (h : IfCode strict s yes no) :
    ifYes s = .ok (if no.isSome then .alone (wrapBlock yes) else .line (wrapBlock yes)) ∧
      ifNo s = .ok (match no with | none => .nothing | some c => .line (wrapBlock c)) := by
  cases h with
  | one hg =>
    obtain ⟨e, h1, h2⟩ := governs_body hg
    refine ⟨by simp [ifYes, h1, h2], ?_⟩
    cases hg with
    | @block w b v hw hb hv =>
      have hm : ¬ Blank '(' := by unfold Blank; decide
      have hx := nextBlock_inside (w := []) (by simp) hb v
      rw [List.nil_append] at hx
      have hv0 := ifBehind_blanks hv []
      rw [List.append_nil] at hv0
      unfold ifNo
      rw [skipBlanks_append hw, skipBlanks_stop hm]
      simp [hx, hv0, show skipBlanks [] = [] from rfl, show elseWord [] = false from rfl]
    | @command w g l hw hl hh =>
      have hp : yes.head? ≠ some '(' := fun e => (hh _ e).2 rfl
      unfold ifNo
      rw [skipBlanks_append hw, skipBlanks_none fun c hc => (hh c hc).1, if_neg hp]
  | @both w v k t _ no hw hb hv hk ht hn =>
    obtain ⟨e, h1, h2⟩ := governs_body hn
    have hm : ¬ Blank '(' := by unfold Blank; decide
    have hx := nextBlock_inside (w := []) (by simp) hb (v ++ (k ++ t))
    rw [List.nil_append] at hx
    have hne : k ++ t ≠ [] := by intro h; have := lower_length hk; simp_all
    have hel : elseWord (k ++ t) = true := (elseWord_iff _).2 ⟨k, t, rfl, hk, ht⟩
    have hd : (k ++ t).drop 4 = t := by rw [show 4 = k.length from (lower_length hk).symm]; simp
    constructor
    · unfold ifYes
      rw [skipBlanks_append hw, skipBlanks_stop hm]
      simp [ifBody, hx, ifBehind_blanks hv, skipBlanks_none (else_head hk t), hne]
    · unfold ifNo
      rw [skipBlanks_append hw, skipBlanks_stop hm]
      simp [hx, ifBehind_blanks hv, skipBlanks_none (else_head hk t), hel, hd, h1, h2]

theorem textCmd_wrap (h : Host ν W τ) (c : List Char) : h.textCmd (wrapBlock c) = .simple (wrapBlock c) := by
  have := textCmd_lead h (w := []) (r := wrapBlock c) (by simp [Txt.Lead]) (bare_paren _)
  rwa [List.nil_append, if_pos (show (wrapBlock c).head? = some '(' from rfl)] at this

theorem usual_wrap (h : Host ν W τ) (c : List Char) : Usual h (wrapBlock c) := by
  intro w r hc hw hr
  cases w with
  | nil => left; rw [List.nil_append] at hc; rw [← hc]; rfl
  | cons d w =>
    have hd : d = '(' := ((List.cons.inj hc).1).symm
    have := hw d (by simp)
    subst hd
    rcases this with h | h
    · exact absurd h (by unfold Blank; decide)
    · cases h

/-! ### Everything -/

theorem getLine_text (h : Host ν W τ) (w : W) (sc : Script) (cs rest ts : List (List Char)) (u : List Char) {strict : Bool}
    (hw : Whole strict u) (hsc : sc.cmds.drop sc.curr = cs ++ rest) (hex : Each (Means h w) cs ts) (ht : ts.flatten = u ++ ['\n']) :
    getLine (h.expand w) sc = .ok (.line u, { sc with curr := sc.curr + cs.length }) := by
  obtain ⟨he, hne⟩ := each_expanded hex
  have hcs : cs ≠ [] := by
    rintro rfl
    cases ts with
    | nil => simp at ht
    | cons => exact he.elim
  have hg := gather_whole hw cs ts rest [] he hcs hne (by simpa using ht)
  unfold getLine
  rw [hsc]
  obtain ⟨c, cs', rfl⟩ := List.exists_cons_of_ne_nil hcs
  simp only [List.cons_append] at hg ⊢
  rw [hg]
  simp [bind, Res.bind, pure, rmTrailingNl]

/-- What is claimed of the runs. -/
def Claim (h : Host ν W τ) (k : Work ν) (s : τ × τ × τ) (x : W × Script) (e : Int) (x' : W × Script) (e' : Int) (a : Abort) : Prop :=
  match k with
  | .command c => ∃ N, ∀ n, N ≤ n → ∀ ty r rest (io : Io τ), io.streams = s → (Nests h c → io.outOwn = true ∧ io.errOut = false) →
      h.cmdText n (ty, r, h.textCmd c) rest ⟨x, e, .no, io⟩ = some ((ty, r, h.textCmd c) :: rest, true, ⟨x', e', a, io⟩)
  | .parts l => ∃ N, ∀ n, N ≤ n → ∀ io : Io τ, io.outOwn = true → io.errOut = false → io.streams = s →
      (runNodes h.base (h.cmdText n) (lineNodes (textParts h l)) ⟨x, e, .no, io⟩).map (·.2) = some ⟨x', e', a, io⟩
  | .rounds vs l => (∀ z ∈ l, ∀ c ∈ z.2.1 :: z.2.2, Usual h c.2) → ∃ N, ∀ n, N ≤ n → ∀ io : Io τ, io.outOwn = true → io.errOut = false →
      io.streams = s → (runLoop h.base (runNodes h.base (h.cmdText n)) vs (lineNodes (textParts h l)) ⟨x, e, .no, io⟩).map (·.2) =
        some ⟨x', e', a, io⟩
  | .line t => ∃ N, ∀ n, N ≤ n → ∀ io : Io τ, io.outOwn = true → io.errOut = false → io.streams = s → ∀ m, unindent m = unindent t →
      h.lineText n m ⟨x, e, .no, io⟩ = some ⟨x', e', a, io⟩
  | .lines ls => ∃ N, ∀ n, N ≤ n → ∀ io : Io τ, io.outOwn = true → io.errOut = false → io.streams = s → ∀ ms, ms.map unindent = ls.map unindent →
      runTexts (h.lineText n) ms ⟨x, e, .no, io⟩ = some ⟨x', e', a, io⟩
  | .script => ∃ N, ∀ n, N ≤ n → ∀ io : Io τ, io.outOwn = true → io.errOut = false → io.streams = s →
      h.runText n ⟨x, e, .no, io⟩ = some ⟨x', e', a, io⟩

theorem cmdBlock_lead {strict : Bool} {rs : List (List Char)} {b v : List Char} (hr : Rows strict true rs b)
    (hat : ∀ r ∈ rs, Nonblank r → ∃ c ∈ r, ¬ Blank c ∧ c ≠ '@') (hv : ∀ c ∈ v, Blank c) :
    ∃ ls, cmdBlock ('(' :: (b ++ ')' :: v)) = .ok (some ls) ∧
      ls.map unindent = (rs.filter fun r => decide (Nonblank r)).map unindent :=
  C112_block_partial (w := []) hr hat (by simp) hv

theorem locked {io : Io τ} {s : τ × τ × τ} (ho : io.outOwn = true) (he : io.errOut = false) (hs : io.streams = s) :
    (io.setLock true).outOwn = true ∧ (io.setLock true).errOut = false ∧ (io.setLock true).streams = s := by
  have hlk := setLock_io io true
  refine ⟨by rw [hlk.1, ho], by rw [hlk.2.1, he], ?_⟩
  rw [← hs, plain_streams (by rw [hlk.1, ho]) (by rw [hlk.2.1, he]), plain_streams ho he, hlk.2.2.1, hlk.2.2.2.1, hlk.2.2.2.2]

/-- After the line is left, nothing runs, unless there are pipes. -/
theorem runNodes_left {ι : Type} (sys : Sys ι ν W τ)
    {rc : Node ι ν → List (Node ι ν) → St W τ → Option (List (Node ι ν) × Bool × St W τ)} (l : List (Link × Part ι ν)) (st : St W τ)
    (ha : st.abort ≠ .no) (hl : ∀ z, l.head? = some z → z.2.2 = [] ∨ z.1.allows st.err = false) :
    runNodes sys rc (lineNodes l) st = some (lineNodes l, st) := by
  cases l with
  | nil => simp [lineNodes, runNodes]
  | cons z l =>
    obtain ⟨o, ⟨⟨r, c⟩, ps⟩⟩ := z
    have e : lineNodes ((o, ((r, c), ps)) :: l) = (linkTy o, r, c) :: (ps.map (fun x => (NodeType.pipe, x)) ++ lineNodes l) := rfl
    have hlaunch : launch sys (!skips (linkTy o) st.err && !c.look) (linkTy o, r, c) (ps.map (fun x => (NodeType.pipe, x)) ++ lineNodes l)
        { st with io := st.io.setLock true } =
        ([], (linkTy o, r, c), ps.map (fun x => (NodeType.pipe, x)) ++ lineNodes l, { st with io := st.io.setLock true }) := by
      rcases hl _ rfl with h | h
      · simp only at h
        subst h
        unfold launch
        split
        · cases hln : lineNodes l with
          | nil => rfl
          | cons q t =>
            simp only [List.map_nil, List.nil_append, pipeLoop]
            rw [if_neg (lineNodes_head q (by rw [hln]; rfl))]
        · rfl
      · simp only at h
        rw [skips_link, h]
        rfl
    rw [e, runNodes.eq_2]
    simp only [hlaunch]
    rw [if_pos (by simp [ha]), if_pos (by simp [ha, closeLine])]
    have hc : closeLine st.io.lockState { st with io := st.io.setLock true } = st := by
      have := closeLine_io (io := st.io) (st := { st with io := st.io.setLock true }) rfl
      cases st with
      | mk w e a io =>
        simp only [closeLine] at this ⊢
        rw [this]
    rw [hc]
    rfl

theorem if_cmd (h : Host ν W τ) {c y : List Char} (hc : IsIf h c y) : ∃ yes no, h.textCmd c = .iff y yes no := by
  obtain ⟨w, r, yes, no, rfl, h2, h3, h4, h5⟩ := hc
  exact ⟨yes, no, by rw [textCmd_lead h h2 h3, if_neg h4, h5]⟩

theorem for_cmd (h : Host ν W τ) {c y : List Char} (hc : IsFor h c y) : ∃ xs ty r, h.textCmd c = .loop xs [[(ty, r, .simple y)]] := by
  obtain ⟨w, r, xs, ty, r', rfl, h2, h3, h4, h5⟩ := hc
  exact ⟨xs, ty, r', by rw [textCmd_lead h h2 h3, if_neg h4, h5]⟩

theorem for_code {strict : Bool} {s c : List Char} (h : Governs strict s c) : forCode s = .ok (some c) := by
  obtain ⟨e, h1, h2⟩ := governs_body h
  unfold ifBehind at h2
  unfold ifBody at h1
  unfold forCode
  by_cases hp : (skipBlanks s).head? = some '('
  · rw [if_pos hp] at h1
    simp only [hp, if_true]
    cases hn : nextBlock (skipBlanks s) with
    | ok z =>
      rw [hn] at h1
      simp only [Res.ok.injEq, Option.some.injEq] at h1
      subst h1
      simp only [List.drop_one] at h2
      simp [Bind.bind, Res.bind, pure, h2]
    | ub => rw [hn] at h1; cases h1
    | hang => rw [hn] at h1; cases h1
  · rw [if_neg hp] at h1
    simp only [List.drop_one] at h2
    simp only [hp, if_false, h1]
    simp [Bind.bind, Res.bind, h2]

theorem for_extra {strict : Bool} {w b v x : List Char} (hw : ∀ c ∈ w, Blank c) (hb : Body strict b) (hv : ∀ c ∈ v, Blank c) (hx : x ≠ [])
    (hx0 : ∀ c, x.head? = some c → ¬ Blank c) : forCode (w ++ '(' :: (b ++ ')' :: (v ++ x))) = .ok none := by
  have hm : ¬ Blank '(' := by unfold Blank; decide
  have hn := nextBlock_inside (w := []) (by simp) hb (v ++ x)
  rw [List.nil_append] at hn
  unfold forCode
  rw [skipBlanks_append hw, skipBlanks_stop hm]
  simp [hn, Bind.bind, Res.bind, pure, skipBlanks_append hv, skipBlanks_none hx0, hx]

/-- FOR, when it is allowed. -/
theorem for_run (h : Host ν W τ) (n : Nat) {o : Link} {p : Piece × List Piece} {l : List (Link × Piece × List Piece)} {y : List Char} (hc : IsFor h p.1.2 y)
    {x : W × Script} {e : Int} (ha : o.allows e = true) (io : Io τ) : ∃ xs ty r,
    runNodes h.base (h.cmdText n) (lineNodes (textParts h ((o, p) :: l))) ⟨x, e, .no, io⟩ =
      (h.cmdText n (linkTy o, p.1.1, .loop xs [[(ty, r, .simple y)]]) (p.2.map (fun d => (NodeType.pipe, d.1, h.textCmd d.2)) ++ lineNodes (textParts h l))
        ⟨x, e, .no, io.setLock true⟩).map (fun z => (z.1, closeLine io.lockState z.2.2)) := by
  obtain ⟨xs, ty, r, h1⟩ := for_cmd h hc
  refine ⟨xs, ty, r, ?_⟩
  have e1 : lineNodes (textParts h ((o, p) :: l)) = (linkTy o, p.1.1, h.textCmd p.1.2) ::
      (p.2.map (fun d => (NodeType.pipe, d.1, h.textCmd d.2)) ++ lineNodes (textParts h l)) := by
    simp [lineNodes, textParts, partNodes]
  rw [e1, h1, runNodes_look h.base (by rw [skips_link, ha]; rfl) rfl rfl]

/-- Lines without IF and FOR are not changed by running them. -/
theorem runNodes_same {ι : Type} (sys : Sys ι ν W τ)
    {rc : Node ι ν → List (Node ι ν) → St W τ → Option (List (Node ι ν) × Bool × St W τ)} (hrc : PlainRc rc) (nodes : List (Node ι ν)) (st : St W τ) :
    (∀ z ∈ nodes, z.2.2.look = false) → ∀ y, runNodes sys rc nodes st = some y → y.1 = nodes := by
  have keep : ∀ (rest : List (Node ι ν)) (lastin : Option τ) (node : Node ι ν) (st : St W τ),
      (pipeLoop sys lastin node rest st).1 ++ (pipeLoop sys lastin node rest st).2.1 :: (pipeLoop sys lastin node rest st).2.2.1 = node :: rest := by
    intro rest
    induction rest with
    | nil => intro _ _ _; rfl
    | cons next rest ih =>
      intro lastin node st
      simp only [pipeLoop]
      split
      · simp only [List.cons_append]; rw [ih]
      · rfl
  have keep' : ∀ (b : Bool) (rest : List (Node ι ν)) (node : Node ι ν) (st : St W τ),
      (launch sys b node rest st).1 ++ (launch sys b node rest st).2.1 :: (launch sys b node rest st).2.2.1 = node :: rest := by
    intro b rest node st
    unfold launch
    split
    · exact keep _ _ _ _
    · rfl
  induction hk : nodes.length using Nat.strongRecOn generalizing nodes st with
  | ind k ih =>
    subst hk
    intro hl y hy
    cases nodes with
    | nil => simp only [runNodes, Option.some.injEq] at hy; rw [← hy]
    | cons node rest =>
      rw [runNodes.eq_2] at hy
      have hlook : node.2.2.look = false := hl node (by simp)
      have hk := keep' (!skips node.1 st.err && !node.2.2.look) rest node { st with io := st.io.setLock true }
      have hlen := launch_length sys (!skips node.1 st.err && !node.2.2.look) node rest { st with io := st.io.setLock true }
      simp only [hlook, Bool.false_eq_true, if_false, Bool.or_false] at hy
      rw [hlook] at hk hlen
      generalize launch sys (!skips node.1 st.err && !false) node rest { st with io := st.io.setLock true } = L at *
      obtain ⟨front, cur, rest', st1⟩ := L
      simp only at hy hk hlen
      have hmem : ∀ z ∈ cur :: rest', z.2.2.look = false := fun z hz => hl z (by rw [← hk]; exact List.mem_append_right _ hz)
      have ihr := fun st => ih rest'.length (by simp only [List.length_cons]; omega) rest' st rfl (fun z hz => hmem z (by simp [hz]))
      split at hy
      · split at hy
        · cases hy; exact hk
        · cases hr : runNodes sys rc rest' (closeLine st.io.lockState st1) with
          | none => rw [hr] at hy; cases hy
          | some w =>
            rw [hr] at hy
            cases hy
            simp only [ihr _ w hr, hk]
      · obtain ⟨ty, r, c⟩ := cur
        have hc := hmem (ty, r, c) (by simp)
        rw [hrc ty r c rest' _ hc] at hy
        cases hq : rc (.none, r, c) [] (execOutput sys r st1) with
        | none => rw [hq] at hy; cases hy
        | some w =>
          rw [hq] at hy
          simp only [Option.map_some, Bool.not_true, Bool.false_eq_true, if_false] at hy
          cases hr : runNodes sys rc rest' (closeLine st.io.lockState w.2.2) with
          | none => rw [hr] at hy; cases hy
          | some v =>
            rw [hr] at hy
            cases hy
            simp only [ihr _ v hr]
            rw [← hk]
            simp

/-- IF, when it is allowed. -/
theorem if_run (h : Host ν W τ) (n : Nat) {o : Link} {p : Piece × List Piece} {l : List (Link × Piece × List Piece)} {y : List Char} (hc : IsIf h p.1.2 y)
    {x : W × Script} {e : Int} (ha : o.allows e = true) (io : Io τ) : ∃ yes no,
    runNodes h.base (h.cmdText n) (lineNodes (textParts h ((o, p) :: l))) ⟨x, e, .no, io⟩ =
      (h.cmdText n (linkTy o, p.1.1, .iff y yes no) (p.2.map (fun d => (NodeType.pipe, d.1, h.textCmd d.2)) ++ lineNodes (textParts h l))
        ⟨x, e, .no, io.setLock true⟩).map (fun z => (z.1, closeLine io.lockState z.2.2)) := by
  obtain ⟨yes, no, h1⟩ := if_cmd h hc
  refine ⟨yes, no, ?_⟩
  have e1 : lineNodes (textParts h ((o, p) :: l)) = (linkTy o, p.1.1, h.textCmd p.1.2) ::
      (p.2.map (fun d => (NodeType.pipe, d.1, h.textCmd d.2)) ++ lineNodes (textParts h l)) := by
    simp [lineNodes, textParts, partNodes]
  rw [e1, h1, runNodes_look h.base (by rw [skips_link, ha]; rfl) rfl rfl]

theorem if_ends {ι : Type} {run : Option (List (Node ι ν) × St W τ)} {x x' : W} {e e' : Int} {a : Abort} {io : Io τ}
    {f : List (Node ι ν) × St W τ → List (Node ι ν)} (h : run.map (·.2) = some ⟨x', e', a, io.setLock true⟩) :
    (((run.map fun z => (f z, false, { z.2 with err := 0 })).map fun z => (z.1, closeLine (⟨x, e, .no, io⟩ : St W τ).io.lockState z.2.2)).map (·.2)) =
      some ⟨x', 0, a, io⟩ := by
  cases run with
  | none => cases h
  | some z =>
    simp only [Option.map_some, Option.some.injEq] at h ⊢
    rw [h]
    exact closeLine_eq (⟨x, e, .no, io⟩ : St W τ) ⟨x', 0, a, io.setLock true⟩ rfl

theorem cmdText_line (h : Host ν W τ) {n : Nat} {b : Bool} {y u c : List Char} {x : W × Script} {e : Int} (hcd : h.cond y x e = (if b then .yes else .no, u))
    (hout : (if b then ifYes u else ifNo u) = .ok (.line c)) (ty : NodeType) (r : Redir (List Char)) (yes : List (List (Node (List Char) ν)))
    (no : Option (List (List (Node (List Char) ν)))) (rest : List (Node (List Char) ν)) (io : Io τ) :
    h.cmdText (n + 1) (ty, r, .iff y yes no) rest ⟨x, e, .no, io⟩ =
      (runNodes h.base (h.cmdText n) ((ty, r, .simple c) :: rest) ⟨x, e, .no, io⟩).map fun z => (z.1, false, { z.2 with err := 0 }) := by
  rw [Host.cmdText]
  cases b <;> simp only [Bool.false_eq_true, if_false, if_true] at hcd hout <;> simp only [hcd, reduceCtorEq, if_false, if_true, hout] <;>
    cases runNodes h.base (h.cmdText n) ((ty, r, .simple c) :: rest) ⟨x, e, .no, io⟩ <;> rfl

theorem cmdText_alone (h : Host ν W τ) {n : Nat} {y u c : List Char} {x : W × Script} {e : Int} (hcd : h.cond y x e = (.yes, u))
    (hout : ifYes u = .ok (.alone c)) (ty : NodeType) (r : Redir (List Char)) (yes : List (List (Node (List Char) ν)))
    (no : Option (List (List (Node (List Char) ν)))) (rest : List (Node (List Char) ν)) (io : Io τ) :
    h.cmdText (n + 1) (ty, r, .iff y yes no) rest ⟨x, e, .no, io⟩ =
      (runNodes h.base (h.cmdText n) [(.none, {}, .simple c)] ⟨x, e, .no, io⟩).map fun z =>
        ((ty, r, .iff y yes no) :: rest, false, { z.2 with err := 0 }) := by
  rw [Host.cmdText]
  simp only [hcd, if_true, hout]
  cases runNodes h.base (h.cmdText n) [(.none, {}, .simple c)] ⟨x, e, .no, io⟩ <;> rfl

/-- A pipeline runs, and then the rest of the line. -/
theorem then_run (h : Host ν W τ) (n : Nat) {o : Link} {p : Piece × List Piece} {l : List (Link × Piece × List Piece)} {x : W × Script} {e : Int} {io : Io τ}
    {st1 st2 : St (W × Script) τ} (ha : o.allows e = true) (hu : Regular h p)
    (h1 : (runNodes h.base (h.cmdText n) (partNodes .none ((p.1.1, h.textCmd p.1.2), p.2.map fun d => (d.1, h.textCmd d.2)))
      ⟨x, e, .no, io⟩).map (·.2) = some st1)
    (h2 : (runNodes h.base (h.cmdText n) (lineNodes (textParts h l)) st1).map (·.2) = some st2) :
    (runNodes h.base (h.cmdText n) (lineNodes (textParts h ((o, p) :: l))) ⟨x, e, .no, io⟩).map (·.2) = some st2 := by
  have e1 : lineNodes (textParts h ((o, p) :: l)) = (linkTy o, p.1.1, h.textCmd p.1.2) ::
      ((p.2.map fun d => (d.1, h.textCmd d.2)).map (fun x => (NodeType.pipe, x)) ++ lineNodes (textParts h l)) := by
    simp [lineNodes, textParts, partNodes]
  rw [e1, runNodes_unit h.base (cmdText_plain h n) (by intro z hz; obtain ⟨d, -, rfl⟩ := List.mem_map.1 hz; rfl) (by
    intro z hz
    simp only [List.map_map, List.mem_map] at hz
    obtain ⟨d, hd, rfl⟩ := hz
    exact usual_look (hu d (by simp [hd])).1) lineNodes_head (usual_look (hu p.1 (by simp)).1) (by rw [skips_link, ha]; rfl) rfl]
  unfold partNodes at h1
  cases hx : runNodes h.base (h.cmdText n) ((.none, p.1.1, h.textCmd p.1.2) :: (p.2.map fun d => (d.1, h.textCmd d.2)).map fun x => (NodeType.pipe, x))
      ⟨x, e, .no, io⟩ with
  | none => rw [hx] at h1; cases h1
  | some z =>
    rw [hx] at h1
    simp only [Option.map_some, Option.some.injEq] at h1
    subst h1
    simp only [Option.bind_some, Option.map_map]
    exact h2

theorem if_extra {strict : Bool} {w b v x : List Char} (hw : ∀ c ∈ w, Blank c) (hb : Body strict b) (hv : ∀ c ∈ v, Blank c) (hx : x ≠ [])
    (hx0 : ∀ c, x.head? = some c → ¬ Blank c)
    (he : ¬ ∃ e t, x = e ++ t ∧ e.map Char.toLower = "else".toList ∧ (t = [] ∨ ∃ c r, t = c :: r ∧ Blank c)) :
    ifNo (w ++ '(' :: (b ++ ')' :: (v ++ x))) = .ok .unexpected := by
  have hm : ¬ Blank '(' := by unfold Blank; decide
  have hn := nextBlock_inside (w := []) (by simp) hb (v ++ x)
  rw [List.nil_append] at hn
  have hel : elseWord x = false := by rw [← Bool.not_eq_true, elseWord_iff]; exact he
  unfold ifNo
  rw [skipBlanks_append hw, skipBlanks_stop hm]
  simp [hn, ifBehind_blanks hv, skipBlanks_none hx0, hx, hel]

theorem does_claim (h : Host ν W τ) {k : Work ν} {s : τ × τ × τ} {x x' : W × Script} {e e' : Int} {a : Abort}
    (hd : Does nameSpecial h k s x e x' e' a) : Claim h k s x e x' e' a := by
  induction hd with
  | @simple w r s x e x' e' a hw hr hp hcls hx =>
    refine ⟨1, ?_⟩
    intro n hn ty r' rest io hs _
    obtain ⟨n, rfl⟩ : ∃ m, n = m + 1 := ⟨n - 1, by omega⟩
    rw [textCmd_lead h hw hr, if_neg hp, hcls, Host.cmdText, if_neg hp]
    simp only [hs, hx]
  | @block w b v rs strict s x e x' e' a hw hr hat hv _ ih =>
    obtain ⟨N, hN⟩ := ih
    refine ⟨N + 1, ?_⟩
    intro n hn ty r' rest io hs hpl
    obtain ⟨n, rfl⟩ : ∃ m, n = m + 1 := ⟨n - 1, by omega⟩
    obtain ⟨ho, he⟩ := hpl (.inl ⟨w, _, rfl, hw⟩)
    obtain ⟨ls, h1, h2⟩ := cmdBlock_lead hr hat hv
    have hlk := setLock_io io true
    have hsl : (io.setLock true).streams = s := by
      rw [← hs, plain_streams (by rw [hlk.1, ho]) (by rw [hlk.2.1, he]), plain_streams ho he, hlk.2.2.1, hlk.2.2.2.1, hlk.2.2.2.2]
    have hrun := hN n (by omega) (io.setLock true) (by rw [hlk.1, ho]) (by rw [hlk.2.1, he]) hsl ls h2
    have hh : ('(' :: (b ++ ')' :: v)).head? = some '(' := rfl
    rw [textCmd_lead h hw (bare_paren _), if_pos hh, Host.cmdText, if_pos hh, h1]
    simp only [hrun, Io.unlock]
  | @behind w b v strict s x e hw hb hv =>
    refine ⟨1, ?_⟩
    intro n hn ty r' rest io hs _
    obtain ⟨n, rfl⟩ : ∃ m, n = m + 1 := ⟨n - 1, by omega⟩
    have h1 := C112_behind (w := []) hb (by simp) hv
    rw [List.nil_append] at h1
    have hh : ('(' :: (b ++ ')' :: v)).head? = some '(' := rfl
    rw [textCmd_lead h hw (bare_paren _), if_pos hh, Host.cmdText, if_pos hh, h1]
  | «end» =>
    refine ⟨0, ?_⟩
    intro n _ io _ _ _ ms hms
    cases ms with
    | nil => rfl
    | cons m ms => cases hms
  | @left l ls s x e x' e' a _ ha ih =>
    obtain ⟨N, hN⟩ := ih
    refine ⟨N, ?_⟩
    intro n hn io ho he hs ms hms
    cases ms with
    | nil => cases hms
    | cons m ms =>
      simp only [List.map_cons, List.cons.injEq] at hms
      rw [runTexts, hN n hn io ho he hs m hms.1]
      simp only [ha, if_true]
  | @next l ls s x e x' e' a x'' e'' a' _ ha _ ih1 ih2 =>
    obtain ⟨N, hN⟩ := ih1
    obtain ⟨M, hM⟩ := ih2
    refine ⟨max N M, ?_⟩
    intro n hn io ho he hs ms hms
    cases ms with
    | nil => cases hms
    | cons m ms =>
      simp only [List.map_cons, List.cons.injEq] at hms
      rw [runTexts, hN n (by omega) io ho he hs m hms.1]
      have hna : ¬ (a = .level ∨ a = .block) := by rcases ha with rfl | rfl <;> simp
      simp only [hna, if_false]
      exact hM n (by omega) io ho he hs ms hms.2
  | @line t l items s x e x' e' a ht hcol hj hi _ ih =>
    obtain ⟨N, hN⟩ := ih
    refine ⟨N + 1, ?_⟩
    intro n hn io ho he hs m hm
    obtain ⟨n, rfl⟩ : ∃ k, n = k + 1 := ⟨n - 1, by omega⟩
    rw [Host.lineText, nodes_text h x.1 hm ht hcol hj hi]
    exact hN n (by omega) io ho he hs
  | stop => exact ⟨0, fun _ _ _ _ _ _ => by simp [textParts, lineNodes, runNodes]⟩
  | @skip o p l s x e x' e' a hal hu _ ih =>
    obtain ⟨N, hN⟩ := ih
    refine ⟨N, ?_⟩
    intro n hn io ho he hs
    have e1 : lineNodes (textParts h ((o, p) :: l)) = (linkTy o, p.1.1, h.textCmd p.1.2) ::
        (p.2.map (fun d => (NodeType.pipe, d.1, h.textCmd d.2)) ++ lineNodes (textParts h l)) := by
      simp [lineNodes, textParts, partNodes]
    rw [e1, runNodes_skip h.base (by rw [skips_link, hal]; rfl) rfl (usual_look (hu _ (by simp))),
      runNodes_skip_pipes h.base (by intro z hz; obtain ⟨d, -, rfl⟩ := List.mem_map.1 hz; rfl) rfl (by
        intro z hz
        obtain ⟨d, hd, rfl⟩ := List.mem_map.1 hz
        exact usual_look (hu d (by simp [hd]))), Option.map_map, Option.map_map]
    exact hN n hn io ho he hs
  | @leave o p l s x e x' e' a hal hu _ ha hl ih =>
    obtain ⟨N, hN⟩ := ih
    refine ⟨N, ?_⟩
    intro n hn io ho he hs
    have h1 := unit_run h n hu (hN n hn) ho he hs
    have h2 := runNodes_left h.base (rc := h.cmdText n) (textParts h l) ⟨x', e', a, io⟩ ha (by
      intro z hz
      cases l with
      | nil => cases hz
      | cons q l =>
        cases hz
        exact (hl q rfl).imp (fun h => by simp [h]) id)
    exact then_run h n hal hu h1 (by rw [h2]; rfl)
  | @go o p l s x e x' e' x'' e'' a hal hu _ _ ih1 ih2 =>
    obtain ⟨N, hN⟩ := ih1
    obtain ⟨M, hM⟩ := ih2
    refine ⟨max N M, ?_⟩
    intro n hn io ho he hs
    exact then_run h n hal hu (unit_run h n hu (hN n (by omega)) ho he hs) (hM n (by omega) io ho he hs)
  | @test o p l y u yes no code strict b s x e x' e' a hal hif hcd hco hch _ ih =>
    obtain ⟨N, hN⟩ := ih
    refine ⟨N + 1, ?_⟩
    intro n hn io ho he hs
    obtain ⟨n, rfl⟩ : ∃ k, n = k + 1 := ⟨n - 1, by omega⟩
    obtain ⟨h1, h2, h3⟩ := locked ho he hs
    have hrun := hN n (by omega) (io.setLock true) h1 h2 h3
    have hic := if_code hco
    have hout : (if b then ifYes u else ifNo u) = .ok (.line (wrapBlock code)) := by
      cases b with
      | true =>
        obtain ⟨rfl, rfl⟩ : no = none ∧ code = yes := by simpa using hch
        simpa using hic.1
      | false =>
        obtain rfl : no = some code := by simpa using hch
        simpa using hic.2
    obtain ⟨y0, n0, hr⟩ := if_run h (n + 1) (l := l) hif hal io (x := x)
    rw [hr, cmdText_line h hcd hout]
    have e1 : lineNodes (textParts h ((o, (p.1.1, '(' :: (code ++ [')'])), p.2) :: l)) = (linkTy o, p.1.1, .simple (wrapBlock code)) ::
        (p.2.map (fun d => (NodeType.pipe, d.1, h.textCmd d.2)) ++ lineNodes (textParts h l)) := by
      rw [← textCmd_wrap h code]
      simp [lineNodes, textParts, partNodes, wrapBlock]
    rw [e1] at hrun
    exact if_ends (x := x) (e := e) hrun
  | @alone o p l y u yes no strict s x e x' e' a hal hif hcd hco hd ih =>
    obtain ⟨N, hN⟩ := ih
    refine ⟨N + 1, ?_⟩
    intro n hn io ho he hs
    obtain ⟨n, rfl⟩ : ∃ k, n = k + 1 := ⟨n - 1, by omega⟩
    obtain ⟨h1, h2, h3⟩ := locked ho he hs
    have hrun := unit_run h n (p := (({}, wrapBlock yes), [])) (s := s) (x := x) (x' := x') (e := e) (e' := e') (a := a)
      (fun c hc => by
        obtain rfl : c = ({}, wrapBlock yes) := by simpa using hc
        exact ⟨usual_wrap h yes, .inl ⟨rfl, rfl⟩⟩)
      (fun ty r' rest io' hs' hop => hN n (by omega) ty r' rest io' hs' hop) (io := io.setLock true) h1 h2 h3
    obtain ⟨y0, n0, hr⟩ := if_run h (n + 1) (l := l) hif hal io (x := x)
    rw [hr, cmdText_alone h hcd (if_code hco).1]
    simp only [partNodes, List.map_nil, textCmd_wrap] at hrun
    exact if_ends (x := x) (e := e) hrun
  | @nothing o p l y u yes strict s x e hal hif hcd hco =>
    refine ⟨1, ?_⟩
    intro n hn io ho he hs
    obtain ⟨n, rfl⟩ : ∃ k, n = k + 1 := ⟨n - 1, by omega⟩
    obtain ⟨y0, n0, hr⟩ := if_run h (n + 1) (l := l) hif hal io (x := x)
    rw [hr, Host.cmdText]
    have hic := if_code hco
    have hz := closeLine_eq (⟨x, e, .no, io⟩ : St (W × Script) τ) ⟨x, 0, .no, io.setLock true⟩ rfl
    simp_all
  | @extra o p l y w b v z strict s x e hal hif hcd hw hb hv hz0 hz1 hz2 =>
    refine ⟨1, ?_⟩
    intro n hn io ho he hs
    obtain ⟨n, rfl⟩ : ∃ k, n = k + 1 := ⟨n - 1, by omega⟩
    obtain ⟨y0, n0, hr⟩ := if_run h (n + 1) (l := l) hif hal io (x := x)
    rw [hr, Host.cmdText]
    have hic := (if_extra hw hb hv hz0 hz1 hz2)
    have hz := closeLine_eq (⟨x, e, .no, io⟩ : St (W × Script) τ) ⟨x, 4, .no, io.setLock true⟩ rfl
    simp_all
  | @refused o p l y u s x e code hal hif hcd =>
    refine ⟨1, ?_⟩
    intro n hn io ho he hs
    obtain ⟨n, rfl⟩ : ∃ k, n = k + 1 := ⟨n - 1, by omega⟩
    obtain ⟨y0, n0, hr⟩ := if_run h (n + 1) (l := l) hif hal io (x := x)
    rw [hr, Host.cmdText]
    have hz := closeLine_eq (⟨x, e, .no, io⟩ : St (W × Script) τ) ⟨x, code, .no, io.setLock true⟩ rfl
    rcases hcd with hcd | ⟨hcd, rfl⟩ <;> simp_all
  | @unasked o p l y s x e hal hif =>
    refine ⟨0, ?_⟩
    intro n hn io ho he hs
    have e1 : lineNodes (textParts h ((o, p) :: l)) = (linkTy o, p.1.1, h.textCmd p.1.2) ::
        (p.2.map (fun d => (NodeType.pipe, d.1, h.textCmd d.2)) ++ lineNodes (textParts h l)) := by
      simp [lineNodes, textParts, partNodes]
    have hz := closeLine_eq (⟨x, e, .no, io⟩ : St (W × Script) τ) ⟨x, e, .no, io.setLock true⟩ rfl
    have hsk : skips (linkTy o) e = true := by rw [skips_link, hal]; rfl
    have hlook : (h.textCmd p.1.2).look = true := by
      rcases hif with hif | hif
      · obtain ⟨y0, n0, h1⟩ := if_cmd h hif; rw [h1]; rfl
      · obtain ⟨y0, n0, r0, h1⟩ := for_cmd h hif; rw [h1]; rfl
    rw [e1, runNodes.eq_2]
    simp only [hsk, hlook, Bool.not_true, Bool.false_and, launch, Bool.false_eq_true, if_false, Bool.true_or, if_true] at hz ⊢
    rw [hz]
    simp
  | @loop o p l y u code strict vs s x x0 e x' e' a hal hif hbe hgo hva hu1 hu2 _ ih =>
    obtain ⟨N, hN⟩ := ih (by
      intro z hz c hc
      rcases List.mem_cons.1 hz with rfl | hz
      · rcases List.mem_cons.1 hc with rfl | hc
        · exact usual_wrap h code
        · exact hu1 c hc
      · exact hu2 z hz c hc)
    refine ⟨N + 1, ?_⟩
    intro n hn io ho he hs
    obtain ⟨n, rfl⟩ : ∃ k, n = k + 1 := ⟨n - 1, by omega⟩
    obtain ⟨h1, h2, h3⟩ := locked ho he hs
    have hrun := hN n (by omega) (io.setLock true) h1 h2 h3
    have e1 : lineNodes (textParts h ((o, (p.1.1, '(' :: (code ++ [')'])), p.2) :: l)) = (linkTy o, p.1.1, .simple (wrapBlock code)) ::
        (p.2.map (fun d => (NodeType.pipe, d.1, h.textCmd d.2)) ++ lineNodes (textParts h l)) := by
      rw [← textCmd_wrap h code]
      simp [lineNodes, textParts, partNodes, wrapBlock]
    rw [e1] at hrun
    obtain ⟨y0, n0, r0, hr⟩ := for_run h (n + 1) (l := l) hif hal io (x := x)
    rw [hr, Host.cmdText]
    simp only [hbe, for_code hgo, hva]
    have hz := closeLine_eq (⟨x, e, .no, io⟩ : St (W × Script) τ) ⟨h.base.setVar none x', 0, a, io.setLock true⟩ rfl
    cases hx : runLoop h.base (runNodes h.base (h.cmdText n)) vs ((linkTy o, p.1.1, .simple (wrapBlock code)) ::
        (p.2.map (fun d => (NodeType.pipe, d.1, h.textCmd d.2)) ++ lineNodes (textParts h l))) ⟨x0, e, .no, io.setLock true⟩ with
    | none => rw [hx] at hrun; cases hrun
    | some z =>
      rw [hx] at hrun
      simp only [Option.map_some, Option.some.injEq] at hrun ⊢
      rw [hrun]
      exact hz
  | @malformed o p l y s x e code hal hif hbe =>
    refine ⟨1, ?_⟩
    intro n hn io ho he hs
    obtain ⟨n, rfl⟩ : ∃ k, n = k + 1 := ⟨n - 1, by omega⟩
    obtain ⟨y0, n0, r0, hr⟩ := for_run h (n + 1) (l := l) hif hal io (x := x)
    rw [hr, Host.cmdText]
    have hz := closeLine_eq (⟨x, e, .no, io⟩ : St (W × Script) τ) ⟨x, code, .no, io.setLock true⟩ rfl
    simp_all
  | @valueless o p l y u c strict s x x0 e code hal hif hbe hgo hva =>
    refine ⟨1, ?_⟩
    intro n hn io ho he hs
    obtain ⟨n, rfl⟩ : ∃ k, n = k + 1 := ⟨n - 1, by omega⟩
    obtain ⟨y0, n0, r0, hr⟩ := for_run h (n + 1) (l := l) hif hal io (x := x)
    rw [hr, Host.cmdText]
    have hz := closeLine_eq (⟨x, e, .no, io⟩ : St (W × Script) τ) ⟨x0, code, .no, io.setLock true⟩ rfl
    have hic := for_code hgo
    simp_all
  | @beyond o p l y w b v z strict s x e hal hif hbe hw hb hv hz0 hz1 =>
    refine ⟨1, ?_⟩
    intro n hn io ho he hs
    obtain ⟨n, rfl⟩ : ∃ k, n = k + 1 := ⟨n - 1, by omega⟩
    obtain ⟨y0, n0, r0, hr⟩ := for_run h (n + 1) (l := l) hif hal io (x := x)
    rw [hr, Host.cmdText]
    have hz := closeLine_eq (⟨x, e, .no, io⟩ : St (W × Script) τ) ⟨x, 4, .no, io.setLock true⟩ rfl
    have hic := for_extra hw hb hv hz0 hz1
    simp_all
  | over => exact fun _ => ⟨0, fun _ _ _ _ _ _ => rfl⟩
  | @broken v vs l s x e x' e' a _ ha ih =>
    intro _
    obtain ⟨N, hN⟩ := ih
    refine ⟨N, ?_⟩
    intro n hn io ho he hs
    have hrun := hN n hn io ho he hs
    rw [runLoop]
    cases hx : runNodes h.base (h.cmdText n) (lineNodes (textParts h l)) ⟨h.base.setVar (some v) x, e, .no, io⟩ with
    | none => rw [hx] at hrun; cases hrun
    | some z =>
      rw [hx] at hrun
      simp only [Option.map_some, Option.some.injEq] at hrun ⊢
      rw [if_pos (by rw [hrun]; exact ha)]
      simp [hrun]
  | @round v vs l s x e x' e' x'' e'' a _ _ ih1 ih2 =>
    intro hl
    obtain ⟨N, hN⟩ := ih1
    obtain ⟨M, hM⟩ := ih2 hl
    refine ⟨max N M, ?_⟩
    intro n hn io ho he hs
    have hrun := hN n (by omega) io ho he hs
    have hrest := hM n (by omega) io ho he hs
    rw [runLoop]
    cases hx : runNodes h.base (h.cmdText n) (lineNodes (textParts h l)) ⟨h.base.setVar (some v) x, e, .no, io⟩ with
    | none => rw [hx] at hrun; cases hrun
    | some z =>
      have hsame := runNodes_same h.base (cmdText_plain h n) _ _ (by
        intro q hq
        simp only [lineNodes, textParts, List.flatMap_map, List.mem_flatMap, partNodes, List.mem_cons, List.map_map, List.mem_map] at hq
        obtain ⟨w, hw, rfl | ⟨d, hd, rfl⟩⟩ := hq
        · exact usual_look (hl w hw _ (by simp))
        · exact usual_look (hl w hw d (by simp [hd]))) z hx
      rw [hx] at hrun
      simp only [Option.map_some, Option.some.injEq] at hrun ⊢
      rw [if_neg (by rw [hrun]; simp), hsame, hrun]
      exact hrest
  | @call w r i s x x0 e x' e' a hw hr hp hcls hen _ ih =>
    obtain ⟨N, hN⟩ := ih
    refine ⟨N + 1, ?_⟩
    intro n hn ty r' rest io hs hpl
    obtain ⟨n, rfl⟩ : ∃ m, n = m + 1 := ⟨n - 1, by omega⟩
    obtain ⟨ho, he⟩ := hpl (.inr ⟨w, r, i, rfl, hw, hr, hp, hcls⟩)
    obtain ⟨h1, h2, h3⟩ := locked ho he hs
    have hrun := hN n (by omega) (io.setLock true) h1 h2 h3
    rw [textCmd_lead h hw hr, if_neg hp, hcls, Host.cmdText]
    simp only [hen, hrun, Io.unlock]
  | @uncalled w r i s x e code hw hr hp hcls hen =>
    refine ⟨1, ?_⟩
    intro n hn ty r' rest io hs _
    obtain ⟨n, rfl⟩ : ∃ m, n = m + 1 := ⟨n - 1, by omega⟩
    rw [textCmd_lead h hw hr, if_neg hp, hcls, Host.cmdText]
    simp only [hen]
  | @done s x e hd =>
    refine ⟨1, ?_⟩
    intro n hn io _ _ _
    obtain ⟨n, rfl⟩ : ∃ m, n = m + 1 := ⟨n - 1, by omega⟩
    rw [Host.runText]
    simp only [getLine, hd]
  | @quit u s x x0 e x' e' hnx _ ih =>
    obtain ⟨cs, rest, ts, strict, h1, h2, h3, h4, rfl⟩ := hnx
    obtain ⟨N, hN⟩ := ih
    refine ⟨N + 1, ?_⟩
    intro n hn io ho he hs
    obtain ⟨n, rfl⟩ : ∃ m, n = m + 1 := ⟨n - 1, by omega⟩
    rw [Host.runText, getLine_text h x.1 x.2 cs rest ts u h4 h1 h2 h3]
    simp only [hN n (by omega) io ho he hs u rfl, if_true]
  | @onward u s x x0 e x' e' a x'' e'' a' hnx _ ha _ ih1 ih2 =>
    obtain ⟨cs, rest, ts, strict, h1, h2, h3, h4, rfl⟩ := hnx
    obtain ⟨N, hN⟩ := ih1
    obtain ⟨M, hM⟩ := ih2
    refine ⟨max N M + 1, ?_⟩
    intro n hn io ho he hs
    obtain ⟨n, rfl⟩ : ∃ m, n = m + 1 := ⟨n - 1, by omega⟩
    rw [Host.runText, getLine_text h x.1 x.2 cs rest ts u h4 h1 h2 h3]
    simp only [hN n (by omega) io ho he hs u rfl, ha, if_false]
    exact hM n (by omega) io ho he hs

end PBat.Prog
