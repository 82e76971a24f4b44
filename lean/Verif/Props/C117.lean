import Verif.Model.GotoRun
import Verif.Spec.GotoRun
import Verif.Props.C19
import Verif.Props.C115
/-
C117: GOTO in a script, from its text to its effect.
-/
namespace PBat.Prog
open PBat PBat.Spec PBat.Spec.Prog PBat.Spec.Txt

variable {ν W τ : Type}

section
variable (lc : LibC)

theorem goto_found {g b m v n : List Char} (hg : fold g = "goto".toList) (hb : ∀ c ∈ b, Blank c) (hs : b.head? ≠ some ';')
    (hm : m = n ∧ b ≠ [] ∨ m = ':' :: n) :
    ∃ k, (mapInfo lc defaultCmds).lookup (g ++ (b ++ m ++ v)) = .ok (some k) ∧ k.info = "pBat_CmdGoto" := by
  cases b with
  | nil =>
    obtain rfl := hm.resolve_left (by simp)
    refine ⟨⟨"GOTO:".toList, 0, "pBat_CmdGoto"⟩, ?_, rfl⟩
    have := C21_builtin_partial lc ⟨"GOTO:".toList, 0, "pBat_CmdGoto"⟩ (by decide +kernel) (g ++ [':']) (n ++ v)
      (by unfold fold at hg ⊢; rw [List.map_append, hg]; decide) (.inl rfl) (fun _ => by decide)
    simpa using this
  | cons c b =>
    refine ⟨⟨"GOTO".toList, 4, "pBat_CmdGoto"⟩, ?_, rfl⟩
    refine C21_builtin_partial lc _ (by decide +kernel) g _ hg (.inr ?_) ?_
    · intro d hd
      obtain rfl : c = d := by simpa using hd
      have := hb c (by simp)
      unfold Blank at this
      rcases this with rfl | rfl | rfl | rfl | rfl <;> decide
    · intro h
      exact absurd h hs

theorem goto_name {ex : List Char → Res (List Char)} {n b m v : List Char} (hn : GotoWord ex n) (hb : ∀ c ∈ b, Blank c)
    (hm : m = n ∧ b ≠ [] ∨ m = ':' :: n) (hv : ∀ c ∈ v, Blank c) : gotoName ex (b ++ m ++ v) = .ok (':' :: n) := by
  obtain ⟨h1, h2, -, h4, h5⟩ := hn
  have := C19_name ex b v n hb hv h1 h2 h4 h5
  rcases hm with ⟨rfl, -⟩ | rfl
  · exact this.1
  · exact this.2

theorem goto_start {ex : List Char → Res (List Char)} {n b m v : List Char} (hn : GotoWord ex n) (hb : ∀ c ∈ b, Blank c)
    (hm : m = n ∧ b ≠ [] ∨ m = ':' :: n) : (skipBlanks (b ++ m ++ v)).head?.any (fun c => optionStart.contains c) = false := by
  obtain ⟨h1, h2, h3, -, -⟩ := hn
  obtain ⟨d, n, rfl⟩ := List.exists_cons_of_ne_nil h1
  rw [List.append_assoc, skipBlanks_append hb]
  rcases hm with ⟨rfl, -⟩ | rfl
  · rw [List.cons_append, skipBlanks_stop (h2 d (by simp)).1]
    have := h3 d rfl
    simpa [optionStart] using this
  · rw [List.cons_append, skipBlanks_stop (by simp [Blank])]
    show optionStart.contains ':' = false
    decide

variable {h : Host ν W τ} (hcls : h.cls = tableCls (mapInfo lc defaultCmds))
  {junk : Bool} {ex : W × Script → List Char → Res (List Char)} {file : W → FileText}
  {other : List Char → W × Script → Int → τ × τ × τ → (W × Script) × Int × Abort}
  (hexec : h.base.exec = gotoExec (mapInfo lc defaultCmds) junk ex file other)
include hcls hexec

/-- The command runs as GOTO does with this name. -/
theorem goto_runs {n c : List Char} {s : τ × τ × τ} {x x' : W × Script} {e e' : Int} {a : Abort} (hc : GotoText n c) (hn : GotoWord (ex x) n)
    (hr : ∀ rest, gotoName (ex x) rest = .ok (':' :: n) →
      (gotoCmd junk (ex x) x.2 (file x.1) none rest = .ok .leave ∧ x' = x ∧ e' = e ∧ a = .level) ∨
      ∃ sc, gotoCmd junk (ex x) x.2 (file x.1) none rest = .ok (.moved sc) ∧ x' = (x.1, sc) ∧ e' = e ∧ a = .block) :
    Usual h c ∧ Does nameSpecial h (.command c) s x e x' e' a := by
  obtain ⟨w, g, b, m, v, rfl, hw, hg, hb, hs, hm, hv⟩ := hc
  obtain ⟨k, hk, hi⟩ := goto_found lc (v := v) hg hb hs hm
  obtain ⟨h1, h2⟩ := word_bare (y := b ++ m ++ v) hg ⟨'g', "oto".toList, rfl, by decide, by decide⟩
  have hcl : h.cls (g ++ (b ++ m ++ v)) = .simple (g ++ (b ++ m ++ v)) := by
    rw [hcls]
    unfold tableCls
    rw [hk]
    simp only [hi]
    rw [if_neg (by decide), if_neg (by decide), if_neg (by decide)]
  constructor
  · refine usual_plain ?_
    have : bare (w ++ (g ++ (b ++ m ++ v))) = g ++ (b ++ m ++ v) := by
      rw [← skipAllBlanks_dropped]
      exact skipAllBlanks_lead hw h1
    rw [this, hcl]
  · refine .simple hw h1 h2 hcl ?_
    rw [hexec]
    unfold gotoExec
    simp only [hk, hi, if_true, word_drop (n := 4) hg rfl, goto_start hn hb hm, Bool.false_eq_true, if_false]
    rcases hr _ (goto_name hn hb hm hv) with ⟨h3, rfl, rfl, rfl⟩ | ⟨sc, h3, rfl, rfl, rfl⟩
    · rw [h3]
    · rw [h3]

/-- GOTO with the name of a label of the running script, which has not changed since it was read: what runs next are the commands behind the first
such label.  The block is left, the error level and everything else stay as they are.  Partial: not for options, nor for labels that are missing. -/
theorem C117_goto_partial {n c : List Char} {s : τ × τ × τ} {x : W} {e : Int} {pos : Nat} {a b : List (List Char)} (hc : GotoText n c)
    (hn : GotoWord (ex (x, { loadScript (file x).texts (file x).size with curr := pos })) n) (he : n.map Char.toLower ≠ "eof".toList)
    (hl : Labelled (file x).texts n a b) :
    ∃ p, (loadScript (file x).texts (file x).size).cmds.drop p = commands b ∧ Usual h c ∧
      Does nameSpecial h (.command c) s (x, { loadScript (file x).texts (file x).size with curr := pos }) e
        (x, { loadScript (file x).texts (file x).size with curr := p }) e .block := by
  obtain ⟨l, h1, h2, h3, h4⟩ := hl
  refine ⟨(commands a).length, by rw [loadScript_cmds]; exact drop_label _ a b l h1 h2, ?_⟩
  refine goto_runs lc hcls hexec hc hn fun rest hr => .inr ⟨_, ?_, rfl, rfl, rfl⟩
  have hu : updateScript junk { loadScript (file x).texts (file x).size with curr := pos } (file x) =
      { loadScript (file x).texts (file x).size with curr := pos } := by
    unfold updateScript
    rw [if_neg]
    simp [loadScript]
  have hj : jumpHere { loadScript (file x).texts (file x).size with curr := pos } (':' :: n) =
      .ok { loadScript (file x).texts (file x).size with curr := (commands a).length } := by
    unfold jumpHere
    simp only [loadScript_labels, find_label _ (':' :: n) a b l h1 h2 h3 h4]
  have hne : (':' :: n).map Char.toLower ≠ ":eof".toList := fun h => he (List.cons.inj h).2
  unfold gotoCmd
  simp only [hr, bind, Res.bind, hne, if_false, hu, hj]
  rfl

/-- `GOTO :EOF` leaves the script, and changes nothing. -/
theorem C117_eof {n c : List Char} {s : τ × τ × τ} {x : W × Script} {e : Int} (hc : GotoText n c) (hn : GotoWord (ex x) n)
    (he : n.map Char.toLower = "eof".toList) : Usual h c ∧ Does nameSpecial h (.command c) s x e x e .level := by
  refine goto_runs lc hcls hexec hc hn fun rest hr => .inl ⟨C19_eof _ _ _ _ _ _ _ hr ?_, rfl, rfl, rfl⟩
  rw [List.map_cons, he]
  decide

omit hcls hexec in
/-- A command without redirections at the beginning of a line that leaves the line. -/
theorem first_leaves {u : List Char} {l : SrcLine} {items : List Char → List RedirItem} {s : τ × τ × τ} {x x' : W × Script} {e e' : Int} {a : Abort}
    (ht : unindent u = l.text) (hcol : ∀ r, unindent u ≠ ':' :: r) (hw : WellFormed l.first.1 l.tail)
    (hi : ∀ c ∈ l.cmds, RedirCommand nameSpecial c (items c) ∧ Once (items c)) (h1 : l.first.2 = []) (h2 : items l.first.1 = [.text l.first.1])
    (hm : ∀ z, l.more.head? = some z → z.2.2 = []) (hd : Usual h l.first.1 ∧ Does nameSpecial h (.command l.first.1) s x e x' e' a)
    (ha : a ≠ .no) : Does nameSpecial h (.line u) s x e x' e' a := by
  refine .line ht hcol hw hi ?_
  obtain ⟨⟨f, fs⟩, more⟩ := l
  simp only at h1 h2 hm hd
  subst h1
  have hp : (redirs (h.full x.1) (items f), textOf (items f)) = (({}, f) : Piece) := by
    rw [h2]; simp [redirs, textOf, insOf, outsOf, mergesOf]
  simp only [pieces, List.map_cons, List.map_nil]
  rw [hp]
  refine .leave rfl ?_ hd.2 ha ?_
  · intro d hd'
    obtain rfl := List.mem_singleton.1 hd'
    exact ⟨hd.1, .inl ⟨rfl, rfl⟩⟩
  · intro z hz
    left
    cases more with
    | nil => cases hz
    | cons y more =>
      cases hz
      simp [hm y rfl]

omit hcls hexec in
theorem ran_left {s : τ × τ × τ} {x y x' : W × Script} {e0 e e' : Int} {before ls : List (List Char)} {u : List Char} {a : Abort}
    (hr : Ran nameSpecial h s x e0 before y e) (hu : Does nameSpecial h (.line u) s y e x' e' a) (ha : a = .level ∨ a = .block) :
    Does nameSpecial h (.lines (before ++ u :: ls)) s x e0 x' e' a := by
  induction hr with
  | nil => exact .left hu ha
  | cons h1 h2 _ ih => exact .next h1 h2 (ih hu)

/-- GOTO at the beginning of a row of a block, behind rows that have run: the rows behind it do not run, and the block is left with it.  Partial: as
below. -/
theorem C117_block_partial {u n : List Char} {ls : List (List Char)} {l : SrcLine} {items : List Char → List RedirItem} {s : τ × τ × τ} {y : W} {e : Int}
    {pos : Nat} {a b : List (List Char)} (ht : unindent u = l.text) (hcol : ∀ r, unindent u ≠ ':' :: r) (hw : WellFormed l.first.1 l.tail)
    (hi : ∀ c ∈ l.cmds, RedirCommand nameSpecial c (items c) ∧ Once (items c)) (h1 : l.first.2 = []) (h2 : items l.first.1 = [.text l.first.1])
    (hm : ∀ z, l.more.head? = some z → z.2.2 = []) (hc : GotoText n l.first.1)
    (hn : GotoWord (ex (y, { loadScript (file y).texts (file y).size with curr := pos })) n) (he : n.map Char.toLower ≠ "eof".toList)
    (hl : Labelled (file y).texts n a b) :
    ∃ p, (loadScript (file y).texts (file y).size).cmds.drop p = commands b ∧
      ∀ {before x e0}, Ran nameSpecial h s x e0 before (y, { loadScript (file y).texts (file y).size with curr := pos }) e →
        Does nameSpecial h (.lines (before ++ u :: ls)) s x e0 (y, { loadScript (file y).texts (file y).size with curr := p }) e .block := by
  obtain ⟨p, hp, hd⟩ := C117_goto_partial lc hcls hexec (s := s) (e := e) hc hn he hl
  refine ⟨p, hp, fun {before x e0} hr => ?_⟩
  exact ran_left hr (first_leaves ht hcol hw hi h1 h2 hm hd (by decide)) (.inr rfl)

/-- A script whose next line begins with GOTO and the name of one of its labels runs on behind that label, whatever else the line contains, however
often this happens: it ends as it does when it is run from there.  Partial: as above; no redirections on GOTO, and no pipe right behind it. -/
theorem C117_script_partial {u n : List Char} {l : SrcLine} {items : List Char → List RedirItem} {s : τ × τ × τ} {x : W × Script} {y : W} {e : Int}
    {pos : Nat} {a b : List (List Char)} (hx : Next h x u (y, { loadScript (file y).texts (file y).size with curr := pos }))
    (ht : unindent u = l.text) (hcol : ∀ r, unindent u ≠ ':' :: r) (hw : WellFormed l.first.1 l.tail)
    (hi : ∀ c ∈ l.cmds, RedirCommand nameSpecial c (items c) ∧ Once (items c)) (h1 : l.first.2 = []) (h2 : items l.first.1 = [.text l.first.1])
    (hm : ∀ z, l.more.head? = some z → z.2.2 = []) (hc : GotoText n l.first.1)
    (hn : GotoWord (ex (y, { loadScript (file y).texts (file y).size with curr := pos })) n) (he : n.map Char.toLower ≠ "eof".toList)
    (hl : Labelled (file y).texts n a b) {io : Io τ} (ho : io.outOwn = true) (hee : io.errOut = false) (hs : io.streams = s) :
    ∃ p, (loadScript (file y).texts (file y).size).cmds.drop p = commands b ∧ ∀ x' e' a',
      Does nameSpecial h .script s (y, { loadScript (file y).texts (file y).size with curr := p }) e x' e' a' →
      Does nameSpecial h .script s x e x' e' a' ∧ ∃ N, ∀ k, N ≤ k → h.runText k ⟨x, e, .no, io⟩ = some ⟨x', e', a', io⟩ := by
  obtain ⟨p, hp, hd⟩ := C117_goto_partial lc hcls hexec (s := s) (e := e) hc hn he hl
  refine ⟨p, hp, fun x' e' a' hr => ?_⟩
  have := Does.onward hx (first_leaves ht hcol hw hi h1 h2 hm hd (by decide)) (by decide) hr
  exact ⟨this, C113_script_partial h this ho hee hs⟩

omit hcls hexec in
/-- GOTO is not blank. -/
theorem goto_nonblank {n c : List Char} (hc : GotoText n (unindent c)) : ∃ d ∈ c, ¬ Blank d ∧ d ≠ '@' := by
  obtain ⟨w, g, b, m, v, hc, -, hg, -⟩ := hc
  cases g with
  | nil => cases hg
  | cons d g =>
    refine ⟨d, (List.dropWhile_sublist _).subset (?_ : d ∈ unindent c), (word_bare (y := []) hg ⟨'g', "oto".toList, rfl, by decide, by decide⟩).1 d rfl⟩
    rw [hc]
    simp

/-- A script whose next line begins with IF, with a condition that holds and GOTO behind it, in parentheses or not, runs on behind the label, with the
error level 0.  Partial: as above; no ELSE. -/
theorem C117_if_partial {u n z rest code : List Char} {strict : Bool} {l : SrcLine} {items : List Char → List RedirItem} {s : τ × τ × τ} {x : W × Script}
    {y : W} {e : Int} {pos : Nat} {a b : List (List Char)} (hx : Next h x u (y, { loadScript (file y).texts (file y).size with curr := pos }))
    (ht : unindent u = l.text) (hcol : ∀ r, unindent u ≠ ':' :: r) (hw : WellFormed l.first.1 l.tail)
    (hi : ∀ c ∈ l.cmds, RedirCommand nameSpecial c (items c) ∧ Once (items c)) (h1 : l.first.2 = []) (h2 : items l.first.1 = [.text l.first.1])
    (hm : ∀ z, l.more.head? = some z → z.2.2 = []) (hif : FirstWord "if".toList l.first.1 z)
    (hcond : h.cond z (y, { loadScript (file y).texts (file y).size with curr := pos }) e = (.yes, rest)) (hcode : IfCode strict rest code none)
    (hrow : Row strict false code) (hcol' : ∀ r, unindent code ≠ ':' :: r) (hw' : WellFormed (unindent code) [])
    (hi' : RedirCommand nameSpecial (unindent code) [.text (unindent code)]) (hc : GotoText n (unindent code))
    (hn : GotoWord (ex (y, { loadScript (file y).texts (file y).size with curr := pos })) n) (he : n.map Char.toLower ≠ "eof".toList)
    (hl : Labelled (file y).texts n a b) {io : Io τ} (ho : io.outOwn = true) (hee : io.errOut = false) (hs : io.streams = s) :
    ∃ p, (loadScript (file y).texts (file y).size).cmds.drop p = commands b ∧ ∀ x' e' a',
      Does nameSpecial h .script s (y, { loadScript (file y).texts (file y).size with curr := p }) 0 x' e' a' →
      Does nameSpecial h .script s x e x' e' a' ∧ ∃ N, ∀ k, N ≤ k → h.runText k ⟨x, e, .no, io⟩ = some ⟨x', e', a', io⟩ := by
  obtain ⟨p, hp, hd⟩ := C117_goto_partial lc hcls hexec (s := s) (e := e) hc hn he hl
  refine ⟨p, hp, fun x' e' a' hr => ?_⟩
  have hrowrun := first_leaves (u := code) (l := ⟨(unindent code, []), []⟩) (items := fun c => [.text c])
    (by simp [SrcLine.text, written, SrcLine.tail, pipes]) hcol' hw' (by
      intro c hc
      simp only [SrcLine.cmds, SrcLine.tail, pipes, List.map_nil, List.flatMap_nil, List.append_nil, List.mem_singleton] at hc
      subst hc
      exact ⟨hi', by simp [Once, insOf, outsOf, mergesOf]⟩) rfl rfl (by simp) hd (by decide)
  obtain ⟨d, hd1, hd2⟩ := goto_nonblank hc
  have hblock : Does nameSpecial h (.command ([] ++ '(' :: (code ++ ')' :: []))) s (y, { loadScript (file y).texts (file y).size with curr := pos }) e
      (y, { loadScript (file y).texts (file y).size with curr := p }) e .block := by
    refine .block (rs := [code]) (by simp [Txt.Lead]) (.last hrow) ?_ (by simp) ?_
    · intro r hr _
      obtain rfl := List.mem_singleton.1 hr
      exact ⟨d, hd1, hd2⟩
    · have : Nonblank code := ⟨d, hd1, hd2.1⟩
      simp only [List.filter_cons, List.filter_nil, this, decide_true, if_true]
      exact .left hrowrun (.inr rfl)
  have hline : Does nameSpecial h (.line u) s (y, { loadScript (file y).texts (file y).size with curr := pos }) e
      (y, { loadScript (file y).texts (file y).size with curr := p }) 0 .block := by
    refine .line ht hcol hw hi ?_
    obtain ⟨⟨f, fs⟩, more⟩ := l
    simp only at h1 h2 hm hif
    subst h1
    have hp : (redirs (h.full y) (items f), textOf (items f)) = (({}, f) : Piece) := by
      rw [h2]; simp [redirs, textOf, insOf, outsOf, mergesOf]
    simp only [pieces, List.map_cons, List.map_nil]
    rw [hp]
    refine .test (b := true) (no := none) rfl ((C115_if lc hcls _ z).2 hif) hcond hcode ⟨rfl, rfl⟩ (.leave rfl ?_ hblock (by decide) ?_)
    · intro d hd'
      obtain rfl := List.mem_singleton.1 hd'
      exact ⟨usual_wrap h code, .inl ⟨rfl, rfl⟩⟩
    · intro z hz
      left
      cases more with
      | nil => cases hz
      | cons y more =>
        cases hz
        simp [hm y rfl]
  have := Does.onward hx hline (by decide) hr
  exact ⟨this, C113_script_partial h this ho hee hs⟩

/-- A script whose next line begins with `GOTO :EOF` ends there, with the error level it had. -/
theorem C117_script_eof {u n : List Char} {l : SrcLine} {items : List Char → List RedirItem} {s : τ × τ × τ} {x y : W × Script} {e : Int}
    (hx : Next h x u y) (ht : unindent u = l.text) (hcol : ∀ r, unindent u ≠ ':' :: r) (hw : WellFormed l.first.1 l.tail)
    (hi : ∀ c ∈ l.cmds, RedirCommand nameSpecial c (items c) ∧ Once (items c)) (h1 : l.first.2 = []) (h2 : items l.first.1 = [.text l.first.1])
    (hm : ∀ z, l.more.head? = some z → z.2.2 = []) (hc : GotoText n l.first.1) (hn : GotoWord (ex y) n) (he : n.map Char.toLower = "eof".toList)
    {io : Io τ} (ho : io.outOwn = true) (hee : io.errOut = false) (hs : io.streams = s) :
    ∃ N, ∀ k, N ≤ k → h.runText k ⟨x, e, .no, io⟩ = some ⟨y, e, .level, io⟩ :=
  C113_script_partial h (.quit hx (first_leaves ht hcol hw hi h1 h2 hm (C117_eof lc hcls hexec hc hn he) (by decide))) ho hee hs

end

/-- A script with labels; the commands that are not known record where they write to. -/
def gotoFile : FileText := ⟨["one\n".toList, "(Goto :end & two)\n".toList, ":mid\n".toList, "three\n".toList, "goto eof & two\n".toList, ":End here\n".toList,
  "four\n".toList, "@goto:mid\n".toList], 90⟩

def gotoHost (lc : LibC) : Host Unit (List (List Char × List Char)) (List Char) :=
  { demoCall with
    base := { demoCall.base with exec := gotoExec (mapInfo lc defaultCmds) false (fun _ t => .ok t) (fun _ => gotoFile) demoCall.base.exec }
    cls := tableCls (mapInfo lc defaultCmds) }

/-- Jumps forwards out of a block, and backwards; then the script is left. -/
example (lc : LibC) : ((gotoHost lc).runText 12 ⟨([], loadScript gotoFile.texts gotoFile.size), 5, .no, ⟨"in".toList, "out".toList, "err".toList, true, false, []⟩⟩).map
      (fun s => (s.world.1.reverse.map (·.1), s.err, s.abort)) = some (["one".toList, "four".toList, "three".toList], 0, .level) := by
  unfold gotoHost
  rw [default_table]
  decide +kernel

/-- All hypotheses of `C117_script_partial` are met: the last line of the script. -/
example (lc : LibC) (w : List (List Char × List Char)) {io : Io (List Char)} (ho : io.outOwn = true) (he : io.errOut = false) :
    ∃ p, (loadScript gotoFile.texts gotoFile.size).cmds.drop p = ["three\n".toList, "goto eof & two\n".toList, "four\n".toList, "@goto:mid\n".toList] ∧
      ∀ x' e' a', Does nameSpecial (gotoHost lc) .script io.streams (w, { loadScript gotoFile.texts gotoFile.size with curr := p }) 5 x' e' a' →
        ∃ N, ∀ k, N ≤ k → (gotoHost lc).runText k ⟨(w, { loadScript gotoFile.texts gotoFile.size with curr := 5 }), 5, .no, io⟩ = some ⟨x', e', a', io⟩ := by
  refine Exists.imp (fun p h => ⟨h.1.trans (by decide +kernel), fun x' e' a' hd => (h.2 x' e' a' hd).2⟩) <| C117_script_partial lc (h := gotoHost lc) rfl (junk := false) (ex := fun _ t => .ok t) (file := fun _ => gotoFile) (other := demoCall.base.exec) rfl
    (x := (w, { loadScript gotoFile.texts gotoFile.size with curr := 5 })) (y := w) (pos := 6) (e := 5) (u := "@goto:mid".toList) (n := "mid".toList)
    (l := ⟨("@goto:mid".toList, []), []⟩) (items := fun c => [.text c]) (a := gotoFile.texts.take 2) (b := gotoFile.texts.drop 3)
    ?_ (by decide) (by intro r h; have := congrArg List.head? h; revert this; rw [List.head?_cons]; decide) (.plain (by decide)) ?_ rfl rfl (by simp)
    ⟨['@'], "goto".toList, [], ":mid".toList, [], rfl, by simp [Txt.Lead], by decide, by simp, by simp, .inr rfl, by simp⟩
    ⟨by decide, by decide, by decide, rfl, rfl⟩ (by decide) ⟨":mid\n".toList, by decide +kernel, by decide +kernel, ?_, ?_⟩ ho he rfl
  · have hd : (loadScript gotoFile.texts gotoFile.size).cmds.drop 5 = ["@goto:mid\n".toList] := by decide +kernel
    refine ⟨["@goto:mid\n".toList], [], ["@goto:mid\n".toList], true, hd, ⟨.done fun i ⟨⟨c, hc, hp⟩, _⟩ => ?_, by simp, trivial⟩, by decide,
      .last (.plain (w := ['@']) (t := "goto:mid".toList) (by decide) (by decide) (by decide) (by decide)), rfl⟩
    have hm := List.mem_of_getElem? hc
    rw [eq_of_beq hp] at hm
    exact absurd hm (by decide)
  · intro c hc
    simp only [SrcLine.cmds, SrcLine.tail, pipes, List.map_nil, List.flatMap_nil, List.append_nil, List.mem_cons, List.not_mem_nil, or_false] at hc
    subst hc
    exact ⟨.plain (.last (NoSign.none (t := "@goto:mid".toList) (by decide))) (.inl (by decide)), by decide⟩
  · exact (labelIs_iff _ _).1 (by decide +kernel)
  · intro x hx hl hm
    have := (labelIs_iff _ _).2 hm
    revert this hl
    have hx' : x ∈ ["one\n".toList, "(Goto :end & two)\n".toList] := hx
    simp only [List.mem_cons, List.not_mem_nil, or_false] at hx'
    rcases hx' with rfl | rfl <;> decide +kernel

/-- The same with IF; the condition is whether the variable `a` is defined. -/
def ifGotoFile : FileText := ⟨["one\n".toList, "if defined b goto end\n".toList, "if defined a goto end & two\n".toList, "three\n".toList, ":end\n".toList,
  "four\n".toList], 80⟩

def ifGotoHost (lc : LibC) : Host Unit (List (List Char × List Char)) (List Char) :=
  { wordsHost lc with
    base := { demoCall.base with exec := gotoExec (mapInfo lc defaultCmds) false (fun _ t => .ok t) (fun _ => ifGotoFile) demoCall.base.exec } }

example (lc : LibC) : ((ifGotoHost lc).runText 12 ⟨([], loadScript ifGotoFile.texts ifGotoFile.size), 5, .no,
      ⟨"in".toList, "out".toList, "err".toList, true, false, []⟩⟩).map
      (fun s => (s.world.1.reverse.map (·.1), s.err, s.abort)) = some (["one".toList, "four".toList], 0, .no) := by
  unfold ifGotoHost wordsHost
  rw [default_table]
  decide +kernel

/-- All hypotheses of `C117_if_partial` are met: the third line of the script. -/
example (lc : LibC) (w : List (List Char × List Char)) {io : Io (List Char)} (ho : io.outOwn = true) (he : io.errOut = false) :
    ∃ p, (loadScript ifGotoFile.texts ifGotoFile.size).cmds.drop p = ["four\n".toList] ∧
      ∀ x' e' a', Does nameSpecial (ifGotoHost lc) .script io.streams (w, { loadScript ifGotoFile.texts ifGotoFile.size with curr := p }) 0 x' e' a' →
        ∃ N, ∀ k, N ≤ k → (ifGotoHost lc).runText k ⟨(w, { loadScript ifGotoFile.texts ifGotoFile.size with curr := 2 }), 5, .no, io⟩ =
          some ⟨x', e', a', io⟩ := by
  refine Exists.imp (fun p h => ⟨h.1.trans (by decide +kernel), fun x' e' a' hd => (h.2 x' e' a' hd).2⟩) <|
    C117_if_partial lc (h := ifGotoHost lc) rfl (junk := false) (ex := fun _ t => .ok t) (file := fun _ => ifGotoFile) (other := demoCall.base.exec) rfl
    (x := (w, { loadScript ifGotoFile.texts ifGotoFile.size with curr := 2 })) (y := w) (pos := 3) (e := 5) (u := "if defined a goto end & two".toList)
    (n := "end".toList) (z := " defined a goto end ".toList) (rest := " goto end ".toList) (code := "goto end ".toList) (strict := true)
    (l := ⟨("if defined a goto end ".toList, []), [(.seq, (" two".toList, []))]⟩) (items := fun c => [.text c]) (a := ifGotoFile.texts.take 4)
    (b := ifGotoFile.texts.drop 5)
    ?_ (by decide) (by intro r h; have := congrArg List.head? h; revert this; rw [List.head?_cons]; decide) ?_ ?_ rfl rfl
    (by intro z hz; cases hz; rfl)
    ⟨[], "if".toList, rfl, by simp [Txt.Lead], by decide, by decide⟩ ?_
    (.one (.command (w := [' ']) (l := "goto end ".toList) (by decide)
      (.plain (w := []) (t := "goto end ".toList) (by simp) (by decide) (by decide) (by decide)) (by decide)))
    (.one (.plain (w := []) (t := "goto end ".toList) (by simp) (by decide) (by decide) (by decide)))
    (by intro r h; have := congrArg List.head? h; revert this; rw [List.head?_cons]; decide) (.plain (by decide))
    (.plain (.last (NoSign.none (by decide))) (.inl (by decide)))
    ⟨[], "goto".toList, [' '], "end".toList, [' '], by decide, by simp [Txt.Lead], by decide, by decide, by decide, .inl ⟨rfl, by decide⟩, by decide⟩
    ⟨by decide, by decide, by decide, rfl, rfl⟩ (by decide) ⟨":end\n".toList, by decide +kernel, by decide +kernel, ?_, ?_⟩ ho he rfl
  · have hd : (loadScript ifGotoFile.texts ifGotoFile.size).cmds.drop 2 =
        ["if defined a goto end & two\n".toList, "three\n".toList, "four\n".toList] := by decide +kernel
    refine ⟨["if defined a goto end & two\n".toList], ["three\n".toList, "four\n".toList], ["if defined a goto end & two\n".toList], true, hd,
      ⟨.done fun i ⟨⟨c, hc, hp⟩, _⟩ => ?_, by simp, trivial⟩, by decide, ?_, rfl⟩
    · have hm := List.mem_of_getElem? hc
      rw [eq_of_beq hp] at hm
      exact absurd hm (by decide)
    · exact .cons (l := "if defined a goto end ".toList) (c := '&') (b := " two".toList)
        (.clause (w := []) (t := "if defined a goto end ".toList) (by simp) (by decide) (.text (by decide))) (.inl rfl)
        (.last (.plain (w := [' ']) (t := "two".toList) (by decide) (by decide) (by decide) (by decide)))
  · exact ⟨.plain (by decide), fun _ => by decide, by decide, .plain (by decide)⟩
  · intro c hc
    simp only [SrcLine.cmds, SrcLine.tail, pipes, List.map_nil, List.flatMap_nil, List.append_nil, List.flatMap_cons, List.nil_append, List.map_cons,
      List.mem_cons, List.not_mem_nil, or_false] at hc
    rcases hc with rfl | rfl
    all_goals exact ⟨.plain (.last (NoSign.none (by decide))) (.inl (by decide)), by decide⟩
  · have : ifCond ⟨.ok, fun n => n == ['a'], fun _ => false, ['0'], sampleStrtod⟩ none " defined a goto end ".toList =
        .ok (.value true " goto end ".toList) := by decide +kernel
    unfold ifGotoHost wordsHost
    simp only [tableCond]
    rw [this]
    rfl
  · exact (labelIs_iff _ _).1 (by decide +kernel)
  · intro x hx hl hm
    have := (labelIs_iff _ _).2 hm
    revert this hl
    have hx' : x ∈ ["one\n".toList, "if defined b goto end\n".toList, "if defined a goto end & two\n".toList, "three\n".toList] := hx
    simp only [List.mem_cons, List.not_mem_nil, or_false] at hx'
    rcases hx' with rfl | rfl | rfl | rfl <;> decide +kernel

end PBat.Prog
