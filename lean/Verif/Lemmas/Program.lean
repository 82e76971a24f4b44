import Verif.Spec.Program
import Verif.Lemmas.Run
import Verif.Props.C13
import Verif.Props.C16
import Verif.Props.C45
import Verif.Props.C47
import Verif.Props.C53
/-
Lemmas for C111.
-/
namespace PBat.Prog
open PBat PBat.Spec PBat.Spec.Prog

variable {ν W τ : Type}

theorem pipeLoop_simple (sys : Sys (List Char) ν W τ) (rd : List Char → Redir (List Char) × List Char) (ds : List (List Char)) :
    ∀ (ty : NodeType) (inp : Option τ) (c : List Char) (st : St W τ), ∃ front ty' c' inp' w',
      pipeLoop sys inp (ty, (rd c).1, .simple (rd c).2) (ds.map fun d => (NodeType.pipe, (rd d).1, .simple (rd d).2)) st =
        (front, (ty', (rd c').1, .simple (rd c').2), [], inp', { st with world := w' }) ∧
      ∀ io err, pipelineFrom sys rd inp c ds ⟨st.world, err, st.abort, io⟩ = lastCommand sys inp' (rd c').1 (rd c').2 ⟨w', err, st.abort, io⟩ := by
  induction ds with
  | nil =>
    intro ty inp c st
    exact ⟨[], ty, c, inp, st.world, rfl, fun _ _ => rfl⟩
  | cons d ds ih =>
    intro ty inp c st
    obtain ⟨front, ty', c', inp', w', h1, h2⟩ := ih .pipe (some (sys.pipe st.world).2) d
      { st with world := sys.spawn (rd c).1 (.simple (rd c).2) inp (sys.pipe st.world).2 st.abort (sys.pipe st.world).1 }
    refine ⟨(ty, (rd c).1, .simple (rd c).2) :: front, ty', c', inp', w', ?_, ?_⟩
    · simp only [List.map_cons, pipeLoop, if_true]
      rw [h1]
    · intro io err
      rw [pipelineFrom]
      exact h2 io err

theorem setLock_io (io : Io τ) (b : Bool) : (io.setLock b).outOwn = io.outOwn ∧ (io.setLock b).errOut = io.errOut ∧
    (io.setLock b).inp = io.inp ∧ (io.setLock b).out = io.out ∧ (io.setLock b).err = io.err := by
  unfold Io.setLock
  split <;> exact ⟨rfl, rfl, rfl, rfl, rfl⟩

/-- The input of the last command of a pipeline. -/
def fed (inp : Option τ) (io : Io τ) : Io τ :=
  match inp with
  | none => io
  | some t => io.openOutputD (some t) .inp

theorem fed_io (inp : Option τ) (io : Io τ) : (fed inp io).outOwn = io.outOwn ∧ (fed inp io).errOut = io.errOut ∧
    (fed inp io).inp = inp.getD io.inp ∧ (fed inp io).out = io.out ∧ (fed inp io).err = io.err := by
  cases inp <;> exact ⟨rfl, rfl, rfl, rfl, rfl⟩

theorem execOutput_rest {ι : Type} (sys : Sys ι ν W τ) (r : Redir ι) (st : St W τ) :
    (execOutput sys r st).err = st.err ∧ (execOutput sys r st).abort = st.abort := by
  unfold execOutput
  simp only [openRedir_eq]
  cases r.errToOut <;> cases r.outToErr <;> exact ⟨rfl, rfl⟩

/-- A pipeline as the nodes of a line. -/
def part (rd : List Char → Redir (List Char) × List Char) (p : Pipeline) : Part (List Char) ν :=
  (((rd p.1).1, .simple (rd p.1).2), p.2.map fun d => ((rd d).1, .simple (rd d).2))

theorem part_run (sys : Sys (List Char) ν W τ) (rd : List Char → Redir (List Char) × List Char) (n : Nat) (p : Pipeline) (st : St W τ)
    (ha : st.abort = .no) (ho : st.io.outOwn = true) (he : st.io.errOut = false) :
    (runNodes sys (runCmd sys (n + 1)) (partNodes .none (part rd p)) st).map (·.2) = some (pipelineFrom sys rd none p.1 p.2 st) := by
  obtain ⟨c, ds⟩ := p
  obtain ⟨front, ty', c', inp', w', h1, h2⟩ := pipeLoop_simple sys rd ds .none none c { st with io := st.io.setLock true }
  have hst1 : (launch sys true (.none, (rd c).1, .simple (rd c).2) (ds.map fun d => (NodeType.pipe, (rd d).1, .simple (rd d).2))
      { st with io := st.io.setLock true }) = (front, (ty', (rd c').1, .simple (rd c').2), [],
        ⟨w', st.err, st.abort, fed inp' (st.io.setLock true)⟩) := by
    unfold launch
    rw [h1]
    cases inp' <;> rfl
  have hrun : ∃ x, runNodes sys (runCmd sys (n + 1)) (partNodes .none (part rd (c, ds))) st = some x ∧
      x.2.world = (pipelineFrom sys rd none c ds st).world ∧ x.2.err = (pipelineFrom sys rd none c ds st).err ∧
      x.2.abort = (pipelineFrom sys rd none c ds st).abort := by
    have hp : (partNodes .none (part (ν := ν) rd (c, ds))) = (.none, (rd c).1, .simple (rd c).2) ::
        (ds.map fun d => (NodeType.pipe, (rd d).1, .simple (rd d).2)) := by
      simp only [partNodes, part, List.map_map]
      rfl
    rw [hp, runNodes.eq_2]
    simp only [skips, Cmd.look, Bool.not_false, Bool.and_self, hst1, Bool.false_or]
    simp only [ha, ne_eq, not_true_eq_false, decide_false,
      Bool.false_eq_true, if_false, runCmd, Bool.not_true, Bool.or_self, runNodes]
    refine ⟨_, rfl, ?_⟩
    have hfed := fed_io inp' (st.io.setLock true)
    have hlk := setLock_io st.io true
    have hC := C45_streams_partial sys (rd c').1 ⟨w', st.err, st.abort, fed inp' (st.io.setLock true)⟩
      (by rw [hfed.1, hlk.1, ho]) (by rw [hfed.2.1, hlk.2.1, he])
    have hR := execOutput_rest sys (rd c').1 ⟨w', st.err, st.abort, fed inp' (st.io.setLock true)⟩
    rw [ha] at hC hR
    simp only at hC hR
    have e2 := h2 st.io st.err
    rw [ha] at e2
    have est : (⟨st.world, st.err, .no, st.io⟩ : St W τ) = st := by rw [← ha]
    simp only [est] at e2
    have hs : (fed inp' (st.io.setLock true)).streams = (inp'.getD st.io.inp, st.io.out, st.io.err) := by
      simp [Io.streams, hfed, hlk, ho, he]
    rw [hs] at hC
    rw [e2]
    have hop : ∀ f w, opened sys f w = tryOpen sys f w := fun f w => by cases f <;> rfl
    simp only [hop] at hC
    simp only [closeLine, lastCommand, hC.1, hC.2, hR.1, Spec.redirected]
    simp
  obtain ⟨x, hx, hw, hr, hb⟩ := hrun
  have hl : runLine sys (n + 2) (partNodes .none (part rd (c, ds))) st = some (x.1, x.2) := by rw [runLine]; exact hx
  have hio := (run_io sys (n + 2)).1 _ _ x.1 x.2 hl
  have hkeep : (pipelineFrom sys rd none c ds st).io = st.io := by
    have e2 := h2 st.io st.err
    simp only at e2
    have : pipelineFrom sys rd none c ds st = _ := e2
    rw [this]
    rfl
  rw [← hkeep] at hio
  rw [hx, Option.map_some]
  congr 1
  cases hxx : x.2
  cases hyy : pipelineFrom sys rd none c ds st
  rw [hxx, hyy] at hw hr hb hio
  simp only at hw hr hb hio
  rw [hw, hr, hb, hio]

theorem runNodes_stays {ι : Type} (sys : Sys ι ν W τ)
    {rc : Node ι ν → List (Node ι ν) → St W τ → Option (List (Node ι ν) × Bool × St W τ)} (hrc : PlainRc rc)
    (l : List (Link × Part ι ν)) : ∀ (st st' : St W τ), (∀ x ∈ l, Ordinary x.2) → st'.abort = .no →
    chain (fun p s => (runNodes sys rc (partNodes .none p) s).map (·.2)) (·.err) (fun s => s.abort ≠ .no) l st = some st' →
    (runNodes sys rc (lineNodes l) st).map (·.2) = some st' := by
  induction l with
  | nil =>
    intro st st' _ _ h
    simp only [chain, Option.some.injEq] at h
    simp [lineNodes, runNodes, h]
  | cons x l ih =>
    intro st st' hl hst' hch
    obtain ⟨o, ⟨⟨r, c⟩, ps⟩⟩ := x
    have ⟨hc, hps⟩ := hl _ (List.mem_cons_self)
    simp only at hc hps
    have hl' : ∀ x ∈ l, Ordinary x.2 := fun x hx => hl x (by simp [hx])
    have e : lineNodes ((o, ((r, c), ps)) :: l) = (linkTy o, r, c) :: (ps.map (fun x => (NodeType.pipe, x)) ++ lineNodes l) := rfl
    have hpt : ∀ p ∈ ps.map (fun x => (NodeType.pipe, x)), p.1 = NodeType.pipe := by
      intro p hp
      obtain ⟨q, -, rfl⟩ := List.mem_map.1 hp
      rfl
    have hpl : ∀ p ∈ ps.map (fun x => (NodeType.pipe, x)), p.2.2.look = false := by
      intro p hp
      obtain ⟨q, hq, rfl⟩ := List.mem_map.1 hp
      exact hps q hq
    simp only [chain] at hch
    by_cases ha : st.abort = .no
    · rw [if_neg (by simp [ha])] at hch
      by_cases hs : skips (linkTy o) st.err = true
      · rw [e, runNodes_skip sys (by exact hs) ha hc, runNodes_skip_pipes sys hpt ha hpl, Option.map_map, Option.map_map]
        rw [skips_link] at hs
        rw [if_neg (by simpa using hs)] at hch
        exact ih st st' hl' hst' hch
      · have hs : skips (linkTy o) st.err = false := by simpa using hs
        have hstep := runNodes_unit sys hrc hpt hpl lineNodes_head hc hs ha (r := r) (rest := lineNodes l)
        rw [skips_link] at hs
        rw [if_pos (by simpa using hs)] at hch
        have hpn : ((.none, r, c) :: ps.map (fun x => (NodeType.pipe, x)) : List (Node ι ν)) = partNodes .none ((r, c), ps) := rfl
        rw [e, hstep, hpn]
        cases hx : runNodes sys rc (partNodes .none ((r, c), ps)) st with
        | none => rw [hx] at hch; cases hch
        | some x =>
          rw [hx] at hch
          simp only [Option.map_some, Option.bind_some, Option.map_map] at hch ⊢
          exact ih x.2 st' hl' hst' hch
    · rw [if_pos (by simp [ha])] at hch
      cases hch
      exact absurd hst' ha

/-- The lines of ordinary commands, if they are not left in the middle or have no pipes. -/
theorem chain_run (sys : Sys (List Char) ν W τ) (rd : List Char → Redir (List Char) × List Char) (n : Nat) (l : List (Link × Pipeline)) :
    ∀ (st st' : St W τ), st.io.outOwn = true → st.io.errOut = false →
    chain (fun p s => some (pipelineFrom sys rd none p.1 p.2 s)) (·.err) (fun s => s.abort ≠ .no) l st = some st' →
    ((∀ x ∈ l, x.2.2 = []) ∨ st'.abort = .no) →
    (runNodes sys (runCmd sys (n + 1)) (lineNodes (l.map fun x => (x.1, part rd x.2))) st).map (·.2) = some st' := by
  intro st st' ho he hch hab
  have hord : ∀ x ∈ l.map (fun x => (x.1, part (ν := ν) rd x.2)), Ordinary x.2 := by
    intro x hx
    obtain ⟨y, -, rfl⟩ := List.mem_map.1 hx
    refine ⟨rfl, ?_⟩
    intro z hz
    simp only [part] at hz
    obtain ⟨d, -, rfl⟩ := List.mem_map.1 hz
    rfl
  have hio : ∀ (p : Pipeline) (s : St W τ), s.abort = .no → s.io = st.io → (pipelineFrom sys rd none p.1 p.2 s).io = st.io := by
    intro p s h1 h2
    have := part_run sys rd n p s h1 (by rw [h2, ho]) (by rw [h2, he])
    cases hx : runNodes sys (runCmd sys (n + 1)) (partNodes .none (part rd p)) s with
    | none => rw [hx] at this; cases this
    | some x =>
      rw [hx, Option.map_some, Option.some.injEq] at this
      have hl : runLine sys (n + 2) (partNodes .none (part rd p)) s = some (x.1, x.2) := by rw [runLine]; exact hx
      have h3 := (run_io sys (n + 2)).1 _ _ x.1 x.2 hl
      rw [← this, h3, h2]
  -- both chains agree
  have heq : ∀ (l : List (Link × Pipeline)) (s : St W τ), s.io = st.io →
      chain (fun p s => some (pipelineFrom sys rd none p.1 p.2 s)) (·.err) (fun s => s.abort ≠ .no) l s =
      chain (fun p s => (runNodes sys (runCmd sys (n + 1)) (partNodes .none p) s).map (·.2)) (·.err) (fun s => s.abort ≠ .no)
        (l.map fun x => (x.1, part rd x.2)) s := by
    intro l
    induction l with
    | nil => intro s _; rfl
    | cons x l ih =>
      intro s hs
      obtain ⟨o, p⟩ := x
      simp only [List.map_cons, chain]
      by_cases ha : s.abort = .no
      · have hd : decide (s.abort ≠ .no) = false := by simp [ha]
        simp only [hd, Bool.false_eq_true, if_false, part_run sys rd n p s ha (by rw [hs, ho]) (by rw [hs, he]), Option.bind_some]
        split
        · exact ih _ (hio p s ha hs)
        · exact ih s hs
      · have hd : decide (s.abort ≠ .no) = true := by simp [ha]
        simp only [hd, if_true]
  rw [heq l st rfl] at hch
  by_cases hnp : ∀ x ∈ l, x.2.2 = []
  · have key := runNodes_chain sys (runCmd_plain sys (n + 1)) _ hord st (.inl (by
      intro x hx
      obtain ⟨y, hy, rfl⟩ := List.mem_map.1 hx
      simp [part, hnp y hy]))
    cases hr : runNodes sys (runCmd sys (n + 1)) (lineNodes (l.map fun x => (x.1, part rd x.2))) st with
    | none => rw [key.2 hr] at hch; cases hch
    | some y => rw [Option.map_some, ← (key.1 y hr).2, hch]
  · have ha := hab.resolve_left hnp
    exact runNodes_stays sys (runCmd_plain sys (n + 1)) _ st st' hord ha hch

/-! ### The text of a line -/

theorem redirs_eq (full : List Char → List Char) (is : List RedirItem) : toRedir (redirOf full is) = redirs full is := by
  unfold toRedir redirOf redirs
  simp only
  congr 1
  · cases (outsOf false is).head? <;> rfl
  · cases (outsOf true is).head? <;> rfl
  · cases (mergesOf is).head? with
    | none => rfl
    | some b => cases b <;> rfl
  · cases (mergesOf is).head? with
    | none => rfl
    | some b => cases b <;> rfl

theorem skipBlanks_head (s : List Char) (c : Char) (h : (skipBlanks s).head? = some c) :
    ∃ w r, s = w ++ c :: r ∧ ∀ d ∈ w, Blank d := by
  induction s with
  | nil => simp [skipBlanks] at h
  | cons d s ih =>
    rw [skipBlanks] at h
    split at h
    · next hd =>
      obtain ⟨w, r, rfl, hw⟩ := ih h
      refine ⟨d :: w, r, rfl, ?_⟩
      intro x hx
      rcases List.mem_cons.1 hx with rfl | hx
      · exact (isDelim_iff _).1 hd
      · exact hw x hx
    · simp at h
      subst h
      exact ⟨[], s, rfl, by simp⟩

theorem means_iff (h : Host ν W τ) (w : W) (s t : List Char) : h.expand w s = .ok t ↔ Means h w s t := C13_expansion _ _ _ _ _

theorem each_expanded {h : Host ν W τ} {w : W} : ∀ {cs ts : List (List Char)}, Each (Means h w) cs ts →
    Expanded (h.expand w) cs ts ∧ ∀ t ∈ ts, t ≠ []
  | [], [], _ => ⟨trivial, by simp⟩
  | _ :: _, _ :: _, ⟨h1, h2, h3⟩ => by
    obtain ⟨h4, h5⟩ := each_expanded h3
    exact ⟨⟨(means_iff h w _ _).2 h1, h4⟩, by simpa using ⟨h2, h5⟩⟩

theorem tail_nodes (rd : List Char → Redir (List Char) × List Char) (l : SrcLine) :
    ((NodeType.none, (rd l.first.1).1, (Cmd.simple (rd l.first.1).2 : Cmd (List Char) ν)) ::
      l.tail.map fun p => (nodeOf p.1, (rd p.2).1, Cmd.simple (rd p.2).2)) =
    lineNodes (((Link.seq, l.first) :: l.more).map fun x => (x.1, part rd x.2)) := by
  obtain ⟨⟨c, ds⟩, more⟩ := l
  simp only [SrcLine.tail, pipes, lineNodes, List.map_cons, List.flatMap_cons, List.map_append, List.map_map, partNodes, part, linkTy,
    List.cons_append]
  congr 2
  simp only [List.flatMap_map, List.map_flatMap]
  congr 1
  funext x
  obtain ⟨o, c, ds⟩ := x
  simp only [List.map_cons, List.map_map]
  congr 1
  cases o <;> rfl

/-- The nodes of a line are the commands written. -/
theorem nodes_line (h : Host ν W τ) (w : W) (items : List Char → List RedirItem) (l : SrcLine) (hs : Sentence nameSpecial items l)
    (hc : ∀ c ∈ l.cmds, h.cls (textOf (items c)) = .simple (textOf (items c))) :
    h.nodes w l.text = lineNodes (((Link.seq, l.first) :: l.more).map fun x =>
      (x.1, part (fun c => (redirs (h.full w) (items c), textOf (items c))) x.2)) := by
  have hcolon : (skipBlanks l.text).head? ≠ some ':' := by
    intro hh
    obtain ⟨v, r, he, hv⟩ := skipBlanks_head _ _ hh
    obtain ⟨c, hcv, hcb⟩ := hs.noColon v r he
    exact hcb (hv c hcv)
  have hp := C53_line_partial (h.delayed w) (h.loops w) (h.mods w) (fun n => .ok (h.vars w n)) (h.full w) l.first.1 l.tail hs.joined items
    (by
      intro s hs'
      apply hs.redirected
      simpa [SrcLine.cmds] using hs')
  rw [if_pos ⟨hs.once _ (by simp [SrcLine.cmds]), fun p hp => hs.once _ (by
    simp only [SrcLine.cmds, List.mem_cons, List.mem_map]
    exact .inr ⟨p, hp, rfl⟩)⟩] at hp
  unfold Host.nodes
  rw [if_neg hcolon]
  have hp' : parseLine (h.delay w) (h.full w) l.text = _ := hp
  rw [hp', ← tail_nodes]
  simp only [List.map_cons, List.map_map]
  rw [redirs_eq, hc _ (by simp [SrcLine.cmds])]
  congr 1
  apply List.map_congr_left
  intro p hp
  simp only [Function.comp_apply]
  rw [redirs_eq, hc _ (by
    simp only [SrcLine.cmds, List.mem_cons, List.mem_map]
    exact .inr ⟨p, hp, rfl⟩)]

/-- What is read. -/
theorem fetch_text (h : Host ν W τ) (w : W) (sc : Script) (cs rest ts : List (List Char)) (u : List Char) (hw : ∃ strict, Whole strict u)
    (hsc : sc.cmds.drop sc.curr = cs ++ rest) (hex : Each (Means h w) cs ts) (ht : ts.flatten = u ++ ['\n']) :
    h.fetch (w, sc) = some (h.nodes (h.echo u w) u, (h.echo u w, { sc with curr := sc.curr + cs.length })) := by
  obtain ⟨strict, hw⟩ := hw
  obtain ⟨he, hne⟩ := each_expanded hex
  have hcs : cs ≠ [] := by
    rintro rfl
    cases ts with
    | nil => simp at ht
    | cons => exact he.elim
  have hg := gather_whole hw cs ts rest [] he hcs hne (by simpa using ht)
  have hget : getLine (h.expand w) sc = .ok (.line u, { sc with curr := sc.curr + cs.length }) := by
    unfold getLine
    rw [hsc]
    obtain ⟨c, cs', rfl⟩ := List.exists_cons_of_ne_nil hcs
    simp only [List.cons_append] at hg ⊢
    rw [hg]
    simp [bind, Res.bind, pure, rmTrailingNl]
  unfold Host.fetch
  simp only [hget]

theorem runSrc_sys (h : Host ν W τ) (rd : List Char → Redir (List Char) × List Char) (l : SrcLine) (st : St (W × Script) τ) :
    runSrc h.sys rd l st = runSrc h.base rd l st := by
  have h1 : ∀ ds inp c st, pipelineFrom h.sys rd inp c ds st = pipelineFrom h.base rd inp c ds st := by
    intro ds
    induction ds with
    | nil => intro inp c st; rfl
    | cons d ds ih =>
      intro inp c st
      simp only [pipelineFrom]
      exact ih _ _ _
  unfold runSrc
  congr 1
  funext p s
  rw [h1]

/-- One line of a script. -/
theorem step_run (h : Host ν W τ) (st st' : St (W × Script) τ) (hs : Step nameSpecial h st st') (ho : st.io.outOwn = true)
    (he : st.io.errOut = false) :
    ∃ nodes w, h.fetch st.world = some (nodes, w) ∧ (∀ n, (runLine h.sys (n + 2) nodes { st with world := w }).map (·.2) = some st') := by
  obtain ⟨cs, rest, ts, l, items, h1, h2, h3, h4, h5, h6, h7⟩ := hs
  refine ⟨_, _, fetch_text h st.world.1 st.world.2 cs rest ts l.text h4.whole h1 h2 h3, ?_⟩
  intro n
  rw [nodes_line h _ items l h4 h5]
  rw [← runSrc_sys] at h6
  unfold runSrc at h6
  rw [runLine]
  refine chain_run h.sys _ n _ _ st' ?_ ?_ h6 ?_
  · exact ho
  · exact he
  · rcases h7 with h7 | h7
    · left
      intro x hx
      rcases List.mem_cons.1 hx with rfl | hx
      · exact h7.1
      · exact h7.2 x hx
    · exact .inr h7

/-- A line with a command that redirects a stream twice. -/
theorem nodes_refused (h : Host ν W τ) (w : W) (items : List Char → List RedirItem) (l : SrcLine) (hj : WellFormed l.first.1 l.tail)
    (hr : ∀ c ∈ l.cmds, RedirCommand nameSpecial c (items c)) (hd : ∃ c ∈ l.cmds, ¬ Once (items c)) : h.nodes w l.text = [] := by
  unfold Host.nodes
  split
  · rfl
  · have hp := C53_line_partial (h.delayed w) (h.loops w) (h.mods w) (fun n => .ok (h.vars w n)) (h.full w) l.first.1 l.tail hj items
      (by
        intro s hs'
        apply hr
        simpa [SrcLine.cmds] using hs')
    rw [if_neg (by
      rintro ⟨h1, h2⟩
      obtain ⟨c, hc, hno⟩ := hd
      simp only [SrcLine.cmds, List.mem_cons, List.mem_map] at hc
      rcases hc with rfl | ⟨p, hp, rfl⟩
      · exact hno h1
      · exact hno (h2 p hp))] at hp
    have hp' : parseLine (h.delay w) (h.full w) l.text = _ := hp
    rw [hp']

/-! ### Commands that do not move the script -/

theorem tryOpen_stays {h : Host ν W τ} (hs : Stays h) (f : Option (List Char × Option Bool)) (x : W × Script) :
    (tryOpen h.base f x).1.2 = x.2 := by
  cases f with
  | none => rfl
  | some f => exact hs.opens _ _ _

theorem pipeline_stays {h : Host ν W τ} (hs : Stays h) (rd : List Char → Redir (List Char) × List Char) (ds : List (List Char)) :
    ∀ inp c (st : St (W × Script) τ), (pipelineFrom h.base rd inp c ds st).world.2 = st.world.2 := by
  induction ds with
  | nil =>
    intro inp c st
    simp only [pipelineFrom, lastCommand, hs.exec, tryOpen_stays hs]
  | cons d ds ih =>
    intro inp c st
    rw [pipelineFrom, ih]
    simp only [hs.spawn, hs.pipe]

theorem chain_stays {h : Host ν W τ} (hs : Stays h) (rd : List Char → Redir (List Char) × List Char) (l : List (Link × Pipeline)) :
    ∀ st st' : St (W × Script) τ, chain (fun p s => some (pipelineFrom h.base rd none p.1 p.2 s)) (·.err) (fun s => s.abort ≠ .no) l st = some st' →
      st'.world.2 = st.world.2 := by
  induction l with
  | nil => intro st st' h; cases h; rfl
  | cons x l ih =>
    intro st st' hc
    obtain ⟨o, p⟩ := x
    simp only [chain] at hc
    split at hc
    · cases hc; rfl
    · split at hc
      · rw [ih _ _ hc, pipeline_stays hs]
      · exact ih _ _ hc

theorem chain_goes {h : Host ν W τ} (hg : ∀ c w e s, (h.base.exec c w e s).2.2 = .no) (rd : List Char → Redir (List Char) × List Char)
    (l : List (Link × Pipeline)) : ∀ st st' : St (W × Script) τ, st.abort = .no →
      chain (fun p s => some (pipelineFrom h.base rd none p.1 p.2 s)) (·.err) (fun s => s.abort ≠ .no) l st = some st' → st'.abort = .no := by
  have hp : ∀ ds inp c (st : St (W × Script) τ), (pipelineFrom h.base rd inp c ds st).abort = .no := by
    intro ds
    induction ds with
    | nil => intro inp c st; simp only [pipelineFrom, lastCommand, hg]
    | cons d ds ih => intro inp c st; rw [pipelineFrom, ih]
  induction l with
  | nil => intro st st' ha h; cases h; exact ha
  | cons x l ih =>
    intro st st' ha hc
    obtain ⟨o, p⟩ := x
    simp only [chain] at hc
    split at hc
    · cases hc; exact ha
    · split at hc
      · exact ih _ _ (hp _ _ _ _) hc
      · exact ih _ _ ha hc

end PBat.Prog
