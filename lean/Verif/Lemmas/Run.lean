import Verif.Lemmas.Stream
import Verif.Spec.Run
/-
Lemmas on the execution of lines.
-/
namespace PBat
open Spec

variable {ι ν W τ : Type}

/-- The node type of an operator. -/
def linkTy : Link → NodeType
  | .seq => .none
  | .and => .yes
  | .or => .not

theorem skips_link (o : Link) (e : Int) : skips (linkTy o) e = !o.allows e := by
  cases o <;> simp only [skips, linkTy, Link.allows, bne, Bool.not_not, Bool.not_true]

/-- A runner of commands which treats ordinary commands as such: what they do does not depend on the operator or on what
follows, and the line goes on. -/
def PlainRc (rc : Node ι ν → List (Node ι ν) → St W τ → Option (List (Node ι ν) × Bool × St W τ)) : Prop :=
  ∀ ty r c rest st, Cmd.look c = false →
    rc (ty, r, c) rest st = (rc (.none, r, c) [] st).map (fun x => ((ty, r, c) :: rest, true, x.2.2))

theorem runCmd_plain (sys : Sys ι ν W τ) (n : Nat) : PlainRc (runCmd sys n) := by
  intro ty r c rest st hc
  cases n with
  | zero => rw [runCmd, runCmd]; rfl
  | succ n =>
    cases c with
    | simple i => rw [runCmd, runCmd]; rfl
    | block lines =>
      rw [runCmd.eq_def, runCmd.eq_def]
      simp only
      cases runLines (runLine sys n) lines { st with io := st.io.setLock true } <;> rfl
    | iff => cases hc
    | loop => cases hc
    | call i =>
      rw [runCmd.eq_def, runCmd.eq_def]
      simp only
      cases sys.enter i st.world with
      | error code => rfl
      | ok w =>
        simp only
        cases runBatch sys n { st with world := w, io := st.io.setLock true } <;> rfl

/-- One step over a skipped command. -/
theorem runNodes_skip (sys : Sys ι ν W τ) {rc : Node ι ν → List (Node ι ν) → St W τ → Option (List (Node ι ν) × Bool × St W τ)}
    {node : Node ι ν} {rest : List (Node ι ν)} {st : St W τ} (hs : skips node.1 st.err = true) (ha : st.abort = .no)
    (hl : node.2.2.look = false) :
    runNodes sys rc (node :: rest) st = (runNodes sys rc rest st).map (fun x => (node :: x.1, x.2)) := by
  rw [runNodes.eq_2]
  simp only [hs, hl, Bool.not_true, Bool.false_and, launch, Bool.false_eq_true, if_false, Bool.true_or, if_true,
    List.nil_append]
  have hc : closeLine st.io.lockState { st with io := st.io.setLock true } = st := by
    have := closeLine_io (io := st.io) (st := { st with io := st.io.setLock true }) rfl
    cases st with
    | mk w e a io =>
      simp only [closeLine] at this ⊢
      rw [this]
  rw [hc, if_neg (by simp [ha])]
  cases runNodes sys rc rest st <;> rfl

theorem runNodes_skip_pipes (sys : Sys ι ν W τ)
    {rc : Node ι ν → List (Node ι ν) → St W τ → Option (List (Node ι ν) × Bool × St W τ)}
    {pipes : List (Node ι ν)} {rest : List (Node ι ν)} {st : St W τ} (hp : ∀ p ∈ pipes, p.1 = .pipe) (ha : st.abort = .no)
    (hl : ∀ p ∈ pipes, p.2.2.look = false) :
    runNodes sys rc (pipes ++ rest) st = (runNodes sys rc rest st).map (fun x => (pipes ++ x.1, x.2)) := by
  induction pipes with
  | nil => simp
  | cons p pipes ih =>
    rw [List.cons_append, runNodes_skip sys (by rw [hp p (by simp)]; rfl) ha (hl p (by simp)),
      ih (fun q hq => hp q (by simp [hq])) (fun q hq => hl q (by simp [hq])), Option.map_map]
    rfl

/-- The pipe loop takes the members of the pipeline and nothing else. -/
theorem pipeLoop_append (sys : Sys ι ν W τ) {pipes : List (Node ι ν)} (hp : ∀ p ∈ pipes, p.1 = .pipe) {rest : List (Node ι ν)}
    (hr : ∀ p, rest.head? = some p → p.1 ≠ .pipe) (lastin : Option τ) (ty ty' : NodeType) (r : Redir ι) (c : Cmd ι ν)
    (st : St W τ) :
    ∃ front cur, front ++ [cur] = (ty, r, c) :: pipes ∧ (cur.1 = ty ∧ pipes = [] ∨ cur.1 = .pipe) ∧
      pipeLoop sys lastin (ty, r, c) (pipes ++ rest) st =
        (front, cur, rest, (pipeLoop sys lastin (ty', r, c) pipes st).2.2.2) ∧
      (pipeLoop sys lastin (ty', r, c) pipes st).2.1.2 = cur.2 ∧ (pipeLoop sys lastin (ty', r, c) pipes st).2.2.1 = [] := by
  induction pipes generalizing lastin ty ty' r c st with
  | nil =>
    refine ⟨[], (ty, r, c), rfl, .inl ⟨rfl, rfl⟩, ?_, rfl, rfl⟩
    cases rest with
    | nil => rfl
    | cons p rest =>
      simp only [List.nil_append, pipeLoop]
      rw [if_neg (hr p rfl)]
  | cons p pipes ih =>
    obtain ⟨pt, pr, pc⟩ := p
    have hpt : pt = .pipe := hp _ (List.mem_cons_self)
    subst hpt
    obtain ⟨front, cur, h1, h2, h3, h4, h5⟩ := ih (fun q hq => hp q (by simp [hq])) (some (sys.pipe st.world).2) .pipe .pipe pr pc
      { st with world := sys.spawn r c lastin (sys.pipe st.world).2 st.abort (sys.pipe st.world).1 }
    refine ⟨(ty, r, c) :: front, cur, by rw [List.cons_append, h1], .inr ?_, ?_, ?_, ?_⟩
    · rcases h2 with h2 | h2
      · exact h2.1
      · exact h2
    · simp only [List.cons_append, pipeLoop, if_true]
      rw [h3]
    · simp only [pipeLoop, if_true]
      exact h4
    · simp only [pipeLoop, if_true]
      exact h5

/-- A part of a line that runs, followed by the rest. -/
theorem runNodes_unit (sys : Sys ι ν W τ)
    {rc : Node ι ν → List (Node ι ν) → St W τ → Option (List (Node ι ν) × Bool × St W τ)} (hrc : PlainRc rc)
    {pipes : List (Node ι ν)} (hp : ∀ p ∈ pipes, p.1 = .pipe) (hl : ∀ p ∈ pipes, p.2.2.look = false)
    {rest : List (Node ι ν)} (hr : ∀ p, rest.head? = some p → p.1 ≠ .pipe) {ty : NodeType} {r : Redir ι} {c : Cmd ι ν}
    (hc : c.look = false) {st : St W τ} (hs : skips ty st.err = false) (ha : st.abort = .no) :
    runNodes sys rc ((ty, r, c) :: (pipes ++ rest)) st =
      (runNodes sys rc ((.none, r, c) :: pipes) st).bind (fun x =>
        (runNodes sys rc rest x.2).map (fun y => ((ty, r, c) :: (pipes ++ y.1), y.2))) := by
  have key : ∀ (ty : NodeType), skips ty st.err = false → ∀ (rest : List (Node ι ν)),
      (∀ p, rest.head? = some p → p.1 ≠ .pipe) →
      runNodes sys rc ((ty, r, c) :: (pipes ++ rest)) st =
      (let l := launch sys true (.none, r, c) pipes { st with io := st.io.setLock true }
       (rc (.none, l.2.1.2) [] (execOutput sys l.2.1.2.1 l.2.2.2)).bind (fun x =>
        (runNodes sys rc rest (closeLine st.io.lockState x.2.2)).map (fun y => ((ty, r, c) :: (pipes ++ y.1), y.2)))) := by
    intro ty hs rest hr
    obtain ⟨front, cur, h1, h2, h3, h4, h5⟩ := pipeLoop_append sys hp hr none ty .none r c { st with io := st.io.setLock true }
    have hst := launch_state sys true (.none, r, c) pipes { st with io := st.io.setLock true }
    have hcl : cur.2.2.look = false := by
      have : cur ∈ (ty, r, c) :: pipes := by rw [← h1]; simp
      rcases List.mem_cons.1 this with h | h
      · rw [h]; exact hc
      · exact hl cur h
    rw [runNodes.eq_2]
    simp only [hs, hc, Bool.not_false, Bool.and_self, Bool.false_or]
    have hla : launch sys true (ty, r, c) (pipes ++ rest) { st with io := st.io.setLock true } =
        (front, cur, rest, (launch sys true (.none, r, c) pipes { st with io := st.io.setLock true }).2.2.2) := by
      unfold launch
      simp only [if_true, h3]
    have hcur : (launch sys true (.none, r, c) pipes { st with io := st.io.setLock true }).2.1.2 = cur.2 := by
      unfold launch
      simp only [if_true]
      exact h4
    rw [hla]
    simp only
    rw [hcur]
    generalize (launch sys true (.none, r, c) pipes { st with io := st.io.setLock true }).2.2.2 = st1 at *
    rw [if_neg (by simp only [hst.2, ha]; decide)]
    rw [if_neg (by simp)]
    obtain ⟨ct, cr, cc⟩ := cur
    simp only at hcl ⊢
    rw [hrc ct cr cc rest _ hcl]
    cases rc (.none, cr, cc) [] (execOutput sys cr st1) with
    | none => rfl
    | some x =>
      simp only [Option.map_some, Option.bind_some, Bool.not_true, Bool.or_self, Bool.false_eq_true, if_false]
      cases runNodes sys rc rest (closeLine st.io.lockState x.2.2) with
      | none => rfl
      | some y =>
        simp only [Option.map_some, List.take_succ_cons, List.take_zero]
        rw [h1, List.cons_append]
  have e1 := key ty hs rest hr
  have e2 := key .none rfl [] (by simp)
  rw [List.append_nil] at e2
  rw [e1, e2]
  simp only
  cases rc (.none, (launch sys true (.none, r, c) pipes { st with io := st.io.setLock true }).2.1.2) []
    (execOutput sys (launch sys true (.none, r, c) pipes { st with io := st.io.setLock true }).2.1.2.1
      (launch sys true (.none, r, c) pipes { st with io := st.io.setLock true }).2.2.2) with
  | none => rfl
  | some x => simp [runNodes]

/-- A part of a line: a command and the further members of its pipeline. -/
abbrev Part (ι ν : Type) := (Redir ι × Cmd ι ν) × List (Redir ι × Cmd ι ν)

/-- The nodes of a part. -/
def partNodes (ty : NodeType) (p : Part ι ν) : List (Node ι ν) := (ty, p.1) :: p.2.map (fun x => (.pipe, x))

/-- The nodes of a line. -/
def lineNodes (l : List (Link × Part ι ν)) : List (Node ι ν) := l.flatMap (fun x => partNodes (linkTy x.1) x.2)

/-- No command of the part is IF or FOR. -/
def Ordinary (p : Part ι ν) : Prop := p.1.2.look = false ∧ ∀ x ∈ p.2, x.2.look = false

theorem lineNodes_head {l : List (Link × Part ι ν)} : ∀ p, (lineNodes l).head? = some p → p.1 ≠ .pipe := by
  cases l with
  | nil => simp [lineNodes]
  | cons x l =>
    intro p h
    simp [lineNodes, partNodes] at h
    subst h
    obtain ⟨o, -⟩ := x
    cases o <;> simp [linkTy]

theorem runNodes_chain (sys : Sys ι ν W τ)
    {rc : Node ι ν → List (Node ι ν) → St W τ → Option (List (Node ι ν) × Bool × St W τ)} (hrc : PlainRc rc)
    (l : List (Link × Part ι ν)) (hl : ∀ x ∈ l, Ordinary x.2) (st : St W τ)
    (hab : (∀ x ∈ l, x.2.2 = []) ∨ ∀ y, runNodes sys rc (lineNodes l) st = some y → y.2.abort = .no) :
    (∀ y, runNodes sys rc (lineNodes l) st = some y → y.1 = lineNodes l ∧
      chain (fun p s => (runNodes sys rc (partNodes .none p) s).map (·.2)) (·.err) (fun s => s.abort ≠ .no) l st = some y.2) ∧
    (runNodes sys rc (lineNodes l) st = none →
      chain (fun p s => (runNodes sys rc (partNodes .none p) s).map (·.2)) (·.err) (fun s => s.abort ≠ .no) l st = none) := by
  induction l generalizing st with
  | nil =>
    constructor
    · intro y h
      simp only [lineNodes, List.flatMap_nil, runNodes] at h ⊢
      cases h
      simp [chain]
    · intro h
      simp [lineNodes, runNodes] at h
  | cons x l ih =>
    obtain ⟨o, ⟨⟨r, c⟩, ps⟩⟩ := x
    have ⟨hc, hps⟩ := hl _ (List.mem_cons_self)
    simp only at hc hps
    have hl' : ∀ x ∈ l, Ordinary x.2 := fun x hx => hl x (by simp [hx])
    have e : lineNodes ((o, ((r, c), ps)) :: l) = (linkTy o, r, c) :: (ps.map (fun x => (NodeType.pipe, x)) ++ lineNodes l) := rfl
    have hpt : ∀ p ∈ ps.map (fun x => (NodeType.pipe, x)), p.1 = NodeType.pipe := by
      intro p hp
      obtain ⟨q, -, rfl⟩ := List.mem_map.1 hp
      rfl
    have hpl : ∀ p ∈ ps.map (fun x => (NodeType.pipe, x)), p.2.2.look = false := by
      intro p hp
      obtain ⟨q, hq, rfl⟩ := List.mem_map.1 hp
      exact hps q hq
    by_cases ha : st.abort = .no
    · -- not yet left
      by_cases hs : skips (linkTy o) st.err = true
      · -- skipped
        have hstep : runNodes sys rc (lineNodes ((o, ((r, c), ps)) :: l)) st =
            (runNodes sys rc (lineNodes l) st).map (fun x => ((linkTy o, r, c) :: (ps.map (fun x => (NodeType.pipe, x)) ++ x.1), x.2)) := by
          rw [e, runNodes_skip sys (by exact hs) ha hc, runNodes_skip_pipes sys hpt ha hpl, Option.map_map]
          rfl
        have hchain : chain (fun p s => (runNodes sys rc (partNodes .none p) s).map (·.2)) (fun s => s.err)
            (fun s => decide (s.abort ≠ .no)) ((o, ((r, c), ps)) :: l) st =
            chain (fun p s => (runNodes sys rc (partNodes .none p) s).map (·.2)) (fun s => s.err)
            (fun s => decide (s.abort ≠ .no)) l st := by
          rw [skips_link] at hs
          simp only [chain]
          rw [if_neg (by simp [ha]), if_neg (by simpa using hs)]
        have ih' := ih hl' st (by
          rcases hab with h | h
          · exact .inl (fun x hx => h x (by simp [hx]))
          · right
            intro y hy
            exact h ((linkTy o, r, c) :: (ps.map (fun x => (NodeType.pipe, x)) ++ y.1), y.2) (by rw [hstep, hy, Option.map_some]))
        rw [hstep, hchain]
        cases hy : runNodes sys rc (lineNodes l) st with
        | none =>
          refine ⟨by simp, fun _ => ih'.2 hy⟩
        | some y =>
          refine ⟨?_, by simp⟩
          intro z hz
          simp only [Option.map_some, Option.some.injEq] at hz
          subst hz
          have := ih'.1 y hy
          refine ⟨?_, this.2⟩
          simp only [this.1]
          rfl
      · -- runs
        have hs : skips (linkTy o) st.err = false := by simpa using hs
        have hstep := runNodes_unit sys hrc hpt hpl lineNodes_head hc hs ha (r := r) (rest := lineNodes l)
        rw [← e] at hstep
        have hpn : ((.none, r, c) :: ps.map (fun x => (NodeType.pipe, x)) : List (Node ι ν)) = partNodes .none ((r, c), ps) := rfl
        rw [hpn] at hstep
        have hchain : chain (fun p s => (runNodes sys rc (partNodes .none p) s).map (·.2)) (fun s => s.err)
            (fun s => decide (s.abort ≠ .no)) ((o, ((r, c), ps)) :: l) st =
            ((runNodes sys rc (partNodes .none ((r, c), ps)) st).map (·.2)).bind
            (chain (fun p s => (runNodes sys rc (partNodes .none p) s).map (·.2)) (fun s => s.err)
            (fun s => decide (s.abort ≠ .no)) l) := by
          rw [skips_link] at hs
          simp only [chain]
          rw [if_neg (by simp [ha]), if_pos (by simpa using hs)]
        rw [hstep, hchain]
        rw [hstep] at hab
        cases hx : runNodes sys rc (partNodes .none ((r, c), ps)) st with
        | none => simp
        | some x =>
          rw [hx] at hab
          simp only [Option.bind_some, Option.map_some] at hab ⊢
          have ih' := ih hl' x.2 (by
            rcases hab with h | h
            · exact .inl (fun x hx => h x (by simp [hx]))
            · right
              intro y hy
              exact h ((linkTy o, r, c) :: (ps.map (fun x => (NodeType.pipe, x)) ++ y.1), y.2) (by rw [hy, Option.map_some]))
          cases hy : runNodes sys rc (lineNodes l) x.2 with
          | none => exact ⟨by simp, fun _ => ih'.2 hy⟩
          | some y =>
            refine ⟨?_, by simp⟩
            intro z hz
            simp only [Option.map_some, Option.some.injEq] at hz
            subst hz
            have := ih'.1 y hy
            refine ⟨?_, this.2⟩
            simp only [this.1]
            rfl
    · -- already left
      have hchain : chain (fun p s => (runNodes sys rc (partNodes .none p) s).map (·.2)) (fun s => s.err)
          (fun s => decide (s.abort ≠ .no)) ((o, ((r, c), ps)) :: l) st = some st := by
        simp only [chain]
        rw [if_pos (by simp [ha])]
      rw [hchain]
      have hla := launch_state sys (!skips (linkTy o) st.err && !c.look) (linkTy o, r, c)
        (ps.map (fun x => (NodeType.pipe, x)) ++ lineNodes l) { st with io := st.io.setLock true }
      have hpop := launch_pop sys (!skips (linkTy o) st.err && !c.look) (linkTy o, r, c)
        (ps.map (fun x => (NodeType.pipe, x)) ++ lineNodes l) { st with io := st.io.setLock true }
      rcases hab with h | h
      · -- no pipes
        have hps0 : ps = [] := h _ (List.mem_cons_self)
        subst hps0
        have hhead : ∀ p, (lineNodes l).head? = some p → p.1 ≠ .pipe := lineNodes_head
        have hlaunch : launch sys (!skips (linkTy o) st.err && !c.look) (linkTy o, r, c) (lineNodes l)
            { st with io := st.io.setLock true } = ([], (linkTy o, r, c), lineNodes l, { st with io := st.io.setLock true }) := by
          unfold launch
          split
          · cases hln : lineNodes l with
            | nil => rfl
            | cons q t =>
              simp only [pipeLoop]
              rw [if_neg (hhead q (by rw [hln]; rfl))]
          · rfl
        have hrun : runNodes sys rc (lineNodes ((o, ((r, c), [])) :: l)) st = some (lineNodes ((o, ((r, c), [])) :: l), st) := by
          rw [e, List.map_nil, List.nil_append, runNodes.eq_2]
          simp only [hlaunch]
          rw [if_pos (by simp [ha]), if_pos (by simp [ha, closeLine])]
          have hc : closeLine st.io.lockState { st with io := st.io.setLock true } = st := by
            have := closeLine_io (io := st.io) (st := { st with io := st.io.setLock true }) rfl
            cases st with
            | mk w e a io =>
              simp only [closeLine] at this ⊢
              rw [this]
          rw [hc]
          rfl
        rw [hrun]
        refine ⟨?_, by simp⟩
        intro y hy
        cases hy
        exact ⟨rfl, rfl⟩
      · -- pipes: the line would be left in the end
        exfalso
        have hrun : ∃ y, runNodes sys rc (lineNodes ((o, ((r, c), ps)) :: l)) st = some y ∧ y.2.abort = st.abort := by
          rw [e, runNodes.eq_2]
          simp only
          rw [if_pos (by simp only [hla.2]; simp [ha]), if_pos (by simp only [closeLine, hla.2]; simp [ha])]
          exact ⟨_, rfl, hla.2⟩
        obtain ⟨y, hy, hya⟩ := hrun
        exact ha (hya ▸ h y hy)

end PBat

namespace PBat
open Spec

variable {ι ν W τ : Type}

theorem pipeLoop_nodes (sys : Sys ι ν W τ) (lastin : Option τ) (node : Node ι ν) (rest : List (Node ι ν)) (st : St W τ) :
    (pipeLoop sys lastin node rest st).1 ++ (pipeLoop sys lastin node rest st).2.1 :: (pipeLoop sys lastin node rest st).2.2.1 =
      node :: rest := by
  induction rest generalizing lastin node st with
  | nil => rfl
  | cons next rest ih =>
    simp only [pipeLoop]
    split
    · simp only [List.cons_append]
      rw [ih]
    · rfl

theorem launch_nodes (sys : Sys ι ν W τ) (go : Bool) (node : Node ι ν) (rest : List (Node ι ν)) (st : St W τ) :
    (launch sys go node rest st).1 ++ (launch sys go node rest st).2.1 :: (launch sys go node rest st).2.2.1 = node :: rest := by
  unfold launch
  split
  · exact pipeLoop_nodes sys none node rest st
  · rfl

/-- Ordinary commands leave the nodes of the line as they are. -/
theorem runNodes_same (sys : Sys ι ν W τ)
    {rc : Node ι ν → List (Node ι ν) → St W τ → Option (List (Node ι ν) × Bool × St W τ)} (hrc : PlainRc rc) :
    ∀ (n : Nat) (nodes : List (Node ι ν)), nodes.length ≤ n → (∀ p ∈ nodes, p.2.2.look = false) → ∀ (st : St W τ) nodes' st',
    runNodes sys rc nodes st = some (nodes', st') → nodes' = nodes := by
  intro n
  induction n with
  | zero =>
    intro nodes hn _ st nodes' st' h
    have : nodes = [] := List.length_eq_zero_iff.1 (by omega)
    subst this
    rw [runNodes] at h
    cases h
    rfl
  | succ n ih =>
    intro nodes hn hl st nodes' st' h
    cases nodes with
    | nil => rw [runNodes] at h; cases h; rfl
    | cons node rest =>
      rw [runNodes.eq_2] at h
      simp only at h
      have hlen := launch_length sys (!skips node.1 st.err && !node.2.2.look) node rest { st with io := st.io.setLock true }
      have hnodes := launch_nodes sys (!skips node.1 st.err && !node.2.2.look) node rest { st with io := st.io.setLock true }
      generalize launch sys (!skips node.1 st.err && !node.2.2.look) node rest { st with io := st.io.setLock true } = r at *
      obtain ⟨front, cur, rest', st1⟩ := r
      simp only at h hlen hnodes
      simp only [List.length_cons] at hn
      have hl2 : ∀ p ∈ rest', p.2.2.look = false := by
        intro p hp
        apply hl p
        rw [← hnodes]
        simp [hp]
      have hlc : cur.2.2.look = false := by
        apply hl
        rw [← hnodes]
        simp
      rw [← hnodes]
      split at h
      · split at h
        · cases h; rfl
        · split at h
          · cases h; rfl
          · split at h
            · cases h
            · next hr =>
              cases h
              rw [ih rest' (by omega) hl2 _ _ _ hr]
      · obtain ⟨ct, cr, cc⟩ := cur
        rw [hrc ct cr cc rest' _ hlc] at h
        split at h
        · cases h
        · next after more st2 hrun =>
          have hcur : after = (ct, cr, cc) :: rest' := by
            cases hrr : rc (NodeType.none, cr, cc) [] (if node.2.2.look = true then st1 else execOutput sys cr st1) with
            | none =>
              simp only at hrun
              rw [hrr] at hrun
              cases hrun
            | some x =>
              simp only at hrun
              rw [hrr] at hrun
              cases hrun
              rfl
          subst hcur
          split at h
          · cases h; rfl
          · split at h
            · cases h
            · next hr =>
              cases h
              rw [ih rest' (by omega) hl2 _ _ _ hr]
              simp

/-- IF or FOR, when it is not skipped. -/
theorem runNodes_look (sys : Sys ι ν W τ)
    {rc : Node ι ν → List (Node ι ν) → St W τ → Option (List (Node ι ν) × Bool × St W τ)}
    {node : Node ι ν} {rest : List (Node ι ν)} {st : St W τ} (hs : skips node.1 st.err = false) (ha : st.abort = .no)
    (hl : node.2.2.look = true) :
    runNodes sys rc (node :: rest) st =
      (rc node rest { st with io := st.io.setLock true }).map (fun x => (x.1, closeLine st.io.lockState x.2.2)) := by
  rw [runNodes.eq_2]
  simp only [hs, hl, Bool.not_false, Bool.not_true, Bool.and_false, launch, Bool.false_eq_true, if_false, Bool.false_or,
    if_true, List.nil_append]
  rw [if_neg (by simp [ha])]
  cases rc node rest { st with io := st.io.setLock true } with
  | none => rfl
  | some x => simp

theorem closeLine_eq (st st' : St W τ) (h : st'.io = st.io.setLock true) :
    closeLine st.io.lockState st' = { st' with io := st.io } := by
  have := closeLine_io (io := st.io) (st := st') (by rw [h])
  unfold closeLine at this ⊢
  simp only at this
  rw [this]

/-- The iterations of FOR over nodes that stay as they are. -/
theorem runLoop_same (sys : Sys ι ν W τ) {rl : List (Node ι ν) → St W τ → Option (List (Node ι ν) × St W τ)}
    {nodes : List (Node ι ν)} (hsame : ∀ st nodes' st', rl nodes st = some (nodes', st') → nodes' = nodes)
    (xs : List ν) (st : St W τ) :
    (runLoop sys rl xs nodes st).map (·.2) =
      forEach (fun x s => { s with world := sys.setVar (some x) s.world }) (fun s => (rl nodes s).map (·.2))
        (fun s => s.abort ≠ .no) xs st := by
  induction xs generalizing st with
  | nil => rfl
  | cons x xs ih =>
    rw [runLoop, forEach]
    cases h : rl nodes { st with world := sys.setVar (some x) st.world } with
    | none => rfl
    | some y =>
      obtain ⟨nodes1, st1⟩ := y
      have := hsame _ _ _ h
      subst this
      simp only [Option.map_some, Option.bind_some]
      split
      · next h => rw [if_pos (by simpa using h)]; rfl
      · next h => rw [if_neg (by simpa using h)]; exact ih st1

end PBat
