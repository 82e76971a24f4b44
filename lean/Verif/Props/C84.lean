import Verif.Lemmas.Clone
/-
C84: commands run in parallel work on a copy of the interpreter.
-/
namespace PBat
open Spec

/-- Making a copy is defined, leaves the original as it is, and gives an instance of its own that holds the same values, whatever the rest of
memory holds and whatever addresses `malloc` gives. -/
theorem C84_copy (f : Nat) (st : Bool) (i : Inst) (v : IView) (R : HProp) (h : Heap) (xs : List Nat) (hd : v.commands.depth ≤ f)
    (hh : (instAt st i v ⋆ R) h) :
    GoodRun (fun j => (instAt st i v ⋆ instAt false j v.copy) ⋆ R) ((cloneInst f i).exec h xs) :=
  works_exec h xs (((cloneInst_triple f st i v hd).frame R) h hh)

/-- The two sides run in any order, access by access: nothing is undefined at any moment, and when both have ended each holds what its own
commands made of its own values. -/
theorem C84_parallel (st sj : Bool) (i j : Inst) (v w : IView) (R : HProp) (h : Heap) (xs : List Nat) (s : List Bool) (os os' : List COp)
    (hh : (instAt st i v ⋆ instAt sj j w ⋆ R) h) :
    GoodPar (fun m n h' => ∀ i' j', m = .ret i' → n = .ret j' →
      (instAt st i' (applyOps os v) ⋆ instAt sj j' (applyOps os' w) ⋆ lost) h') (par s (runOps os i) (runOps os' j) h xs) := by
  have := works_par s (runOps os i) (runOps os' j) h xs
    (star_mono (ops_triple os st i v) (fun h hh => star_mono (ops_triple os' sj j w) (fun _ x => x) h hh) h hh)
  cases hp : par s (runOps os i) (runOps os' j) h xs with
  | now m n h' xs' =>
    rw [hp] at this
    intro i' j' hm hn
    subst hm hn
    have e : ∀ A B C D E : HProp, (A ⋆ B) ⋆ (C ⋆ D) ⋆ E = A ⋆ C ⋆ B ⋆ D ⋆ E := by intros; ac_rfl
    have this := this
    simp only [GoodPar, Works] at this
    rw [e] at this
    exact star_mono (fun _ x => x) (fun h hh => star_mono (fun _ x => x) (fun _ _ => trivial) h hh) h' this
  | ub => rw [hp] at this; exact this
  | hang => rw [hp] at this; exact this
  | stuck => trivial

/-- The same when the copy ends meanwhile (`pBat_Exit`): the original still holds its own values. -/
theorem C84_ending (f : Nat) (st : Bool) (i j : Inst) (v w : IView) (R : HProp) (h : Heap) (xs : List Nat) (s : List Bool) (os os' : List COp)
    (hd : w.commands.depth ≤ f) (hh : (instAt st i v ⋆ instAt false j w ⋆ R) h) :
    GoodPar (fun m _ h' => ∀ i', m = .ret i' → (instAt st i' (applyOps os v) ⋆ lost) h')
      (par s (runOps os i) (runOps os' j >>= instExit f) h xs) := by
  have t : Triple (instAt false j w) (runOps os' j >>= instExit f) fun _ => lost := by
    refine (ops_triple os' false j w).bind fun j' => ?_
    refine ((instExit_triple f j' (applyOps os' w) (by rw [applyOps_commands]; exact hd)).frame lost).post fun _ _ _ => trivial
  have := works_par s (runOps os i) (runOps os' j >>= instExit f) h xs
    (star_mono (ops_triple os st i v) (fun h hh => star_mono t (fun _ x => x) h hh) h hh)
  cases hp : par s (runOps os i) (runOps os' j >>= instExit f) h xs with
  | now m n h' xs' =>
    rw [hp] at this
    intro i' hm
    subst hm
    have this := this
    simp only [GoodPar, Works] at this
    rw [star_assoc] at this
    exact star_mono (fun _ x => x) (fun _ _ => trivial) h' this
  | ub => rw [hp] at this; exact this
  | hang => rw [hp] at this; exact this
  | stuck => trivial

/-- The end of a copy frees all it holds but one record; the rest of memory is as it was. -/
theorem C84_exit_partial (f : Nat) (j : Inst) (v : IView) (R : HProp) (h : Heap) (xs : List Nat) (hd : v.commands.depth ≤ f)
    (hh : (instAt false j v.copy ⋆ R) h) :
    ∃ h' xs' o, (instExit f j).exec h xs = .ok () h' xs' ∧ (pts j.env o ⋆ R) h' := by
  have t := (instExit_triple f j v.copy hd).frame R
  have := works_exec h xs (t h hh)
  cases hp : (instExit f j).exec h xs with
  | ok a h' xs' =>
    rw [hp] at this
    have this : (leftAll j.env v.copy.env j.envStack v.copy.stack ⋆ R) h' := this
    cases hj : j.envStack with
    | cons x l =>
      rw [hj] at this
      exact absurd (fact_star.1 this).1 id
    | nil =>
      simp only [IView.copy, hj, leftAll, leftOver] at this
      have := star_mono (P' := hex fun o => pts j.env o) (fun h hh => by
        have := star_mono (fun _ x => x) (chainsOf_fresh v.env) h hh
        rwa [star_emp] at this) (fun _ x => x) h' this
      rw [star_ex] at this
      obtain ⟨o, this⟩ := this
      exact ⟨h', xs', o, rfl, this⟩
  | ub => rw [hp] at this; exact this.elim
  | hang => rw [hp] at this; exact this.elim
  | stuck => exact absurd hp ((noAlloc_instExit f j).exec h xs)

/-- EXIT inside a label or a script called by CALL frees arrays that are on the stack: undefined for every instance and after any commands. -/
theorem C84_exit_in_call (f : Nat) (st : Bool) (i : Inst) (v : IView) (os : List COp) (R : HProp) (h : Heap) (xs : List Nat)
    (hd : v.commands.depth ≤ f) (hh : (instAt st i v ⋆ R) h) :
    (callEnter i >>= fun i' => runOps os i' >>= instExit f).exec h xs = .ub ∨
      (callEnter i >>= fun i' => runOps os i').exec h xs = .stuck := by
  have t : Triple (instAt st i v) (callEnter i >>= fun i' => runOps os i') fun i' => (hex fun w => fact (w.commands = v.commands) ⋆ instAt true i' w) ⋆ lost := by
    refine (callEnter_triple st i v).bind fun i' => ?_
    refine ((ops_triple os true i' _).frame _).post fun a h hh => ?_
    rw [star_assoc] at hh
    refine star_mono (fun h hh => ?_) (fun _ _ => trivial) h hh
    refine ⟨_, fact_star.2 ⟨?_, hh⟩⟩
    exact applyOps_commands os _
  have hr := works_exec h xs ((t.frame R) h hh)
  have ea : (callEnter i >>= fun i' => runOps os i' >>= instExit f).exec h xs =
      match (callEnter i >>= fun i' => runOps os i').exec h xs with
      | .ok a h xs => (instExit f a).exec h xs
      | .ub => .ub
      | .hang => .hang
      | .stuck => .stuck := by
    rw [exec_bind, exec_bind]
    cases (callEnter i).exec h xs with
    | ok a h xs =>
      simp only [exec_bind]
      cases (runOps os a).exec h xs <;> rfl
    | _ => rfl
  rw [ea]
  cases hx : (callEnter i >>= fun i' => runOps os i').exec h xs with
  | ok j h' xs' =>
    rw [hx] at hr
    left
    have hr : (((hex fun w => fact (w.commands = v.commands) ⋆ instAt true j w) ⋆ lost) ⋆ R) h' := hr
    rw [star_assoc, star_ex] at hr
    obtain ⟨w, hr⟩ := hr
    rw [star_assoc] at hr
    obtain ⟨hw, hr⟩ := fact_star.1 hr
    unfold instAt at hr
    rw [star_assoc, star_assoc] at hr
    have hr := (fact_star.1 hr).2
    show (instExit f j).exec h' xs' = .ub
    unfold instExit
    rw [exec_bind]
    have hf := works_exec h' xs' (((freeCommands_triple w.commands f j.commands (by rw [hw]; exact hd)).frame _) h' hr)
    cases hc : (freeCommands f j.commands).exec h' xs' with
    | ok a h2 xs2 =>
      rw [hc] at hf
      have hf : (hemp ⋆ _) h2 := hf
      rw [emp_star, star_assoc] at hf
      simp only
      rw [exec_bind, freeLocalBlock_stack _ _ _ _ xs2 hf]
    | ub => rfl
    | hang => rw [hc] at hf; exact hf.elim
    | stuck => exact absurd hc (((noAlloc_freeCommands f).1 _).exec _ _)
  | ub => left; rfl
  | hang => rw [hx] at hr; exact hr.elim
  | stuck => right; rfl

/-- The environments put aside by SETLOCAL are not copied: ENDLOCAL restores nothing in the copy, although it does in the original. -/
theorem C84_endlocal (f : Nat) (st : Bool) (i : Inst) (v : IView) (R : HProp) (h : Heap) (xs : List Nat) (hd : v.commands.depth ≤ f)
    (saved : List Slot) (d c : Bool) (rest : List (List Slot × Bool × Bool)) (hs : v.stack = (saved, d, c) :: rest)
    (hh : (instAt st i v ⋆ R) h) :
    GoodRun (fun j h' => (instAt false j v.copy ⋆ lost) h') ((cloneInst f i >>= COp.popEnv.run).exec h xs) ∧
      GoodRun (fun i' h' => ∃ w : IView, w.env = saved ∧ (instAt st i' w ⋆ lost) h') ((COp.popEnv.run i).exec h xs) := by
  constructor
  · refine works_exec h xs ?_
    have t : Triple (instAt st i v) (cloneInst f i >>= COp.popEnv.run) fun j => instAt false j v.copy ⋆ lost := by
      refine (cloneInst_triple f st i v hd).bind fun j => ?_
      refine Triple.conv (star_comm _ _) (((op_triple .popEnv false j v.copy).frame _).post fun j' h hh => ?_)
      rw [star_assoc] at hh
      exact star_mono (fun _ x => x) (fun _ _ => trivial) h hh
    refine ((t.frame R).post fun j h hh => ?_) h hh
    rw [star_assoc] at hh
    exact star_mono (fun _ x => x) (fun _ _ => trivial) h hh
  · refine works_exec h xs ?_
    refine (((op_triple .popEnv st i v).frame R).post fun j h hh => ?_) h hh
    rw [star_assoc] at hh
    refine ⟨COp.popEnv.apply v, by simp only [COp.apply, hs], ?_⟩
    exact star_mono (fun _ x => x) (fun _ _ => trivial) h hh

/-! ### An instance -/

/-- An instance with a macro, no variable, and nothing else. -/
def boot : HM Inst := do
  let q ← halloc (.text ['d', 'i', 'r'])
  let n ← halloc (.text ['l', 's'])
  let c ← halloc (.node n true q none none)
  let l ← halloc (.ptrs false (List.replicate 128 none))
  let a ← halloc (.ptrs false (List.replicate 128 none))
  let b ← halloc (.ptrs false [])
  let e ← halloc (.envbuf 0 0 b)
  pure ⟨c, l, a, ⟨none, 0⟩, e, [], ⟨false, true, 0, true, false, 0, 7, ['/'], [], false, 0⟩⟩

def bootView : IView where
  commands := .node ['l', 's'] (.inr ['d', 'i', 'r']) .nil .nil
  locals := List.replicate 128 none
  args := List.replicate 128 none
  dirs := []
  env := []
  stack := []
  set := ⟨false, true, 0, true, false, 0, 7, ['/'], [], false, 0⟩

theorem boot_triple : Triple hemp boot fun i => instAt false i bootView := by
  unfold boot
  refine Triple.allocK fun q => Triple.allocK fun n => Triple.allocK fun c => Triple.allocK fun l => Triple.allocK fun a =>
    Triple.allocK fun b => Triple.allocK fun e => Triple.pure fun h hh => ?_
  have blk : ∀ b g, pts b (.ptrs false (List.replicate 128 none)) g → localsAt b false (List.replicate 128 none) g := by
    intro b g hh
    refine ⟨List.replicate 128 none, fact_star.2 ⟨⟨by simp, by simp⟩, ?_⟩⟩
    rw [textsAt_none, star_emp]
    exact hh
  have : ∀ A B C D E F G H : HProp, A ⋆ B ⋆ C ⋆ D ⋆ E ⋆ F ⋆ G ⋆ H = (E ⋆ F ⋆ G) ⋆ D ⋆ C ⋆ (A ⋆ B) ⋆ H := by intros; ac_rfl
  rw [this, star_emp] at hh
  refine fact_star.2 ⟨rfl, ?_⟩
  refine star_mono (fun g hg => ?_) (star_mono (blk l) (star_mono (blk a) fun g hg => ?_)) h hh
  · refine ⟨n, true, q, none, none, ?_⟩
    show (_ ⋆ _ ⋆ (Spec.fact (true = true) ⋆ _) ⋆ hemp ⋆ hemp) g
    rw [fact_true_star rfl, star_emp, star_emp]
    exact hg
  · refine fact_star.2 ⟨⟨rfl, rfl⟩, ?_⟩
    show (_ ⋆ hemp) g
    rw [star_emp]
    refine ⟨b, [], [], ?_⟩
    show (_ ⋆ _ ⋆ hemp) g
    rw [star_emp]
    exact hg

/-- How a run ended. -/
def HRes.kind {α : Type} : HRes α → Nat
  | .ok _ _ _ => 0
  | .ub => 1
  | .hang => 2
  | .stuck => 3

/-- An instance with values everywhere: a macro, a local variable, an argument, two directories, an environment put aside. -/
def sampleOps : List COp := [.setLocal 97 (some ['x']), .setArg 49 (some ['y']), .pushDir ['/', 'a'], .pushDir ['/', 'b'], .pushEnv]

theorem goodRun_ok {α : Type} {m : HM α} {P : HProp} {Q : α → HProp} {h : Heap} {xs : List Nat} (t : Triple P m Q) (hp : P h)
    (hk : (m.exec h xs).kind = 0) : ∃ a h', Q a h' := by
  have g := works_exec h xs (t h hp)
  cases hx : m.exec h xs with
  | ok a h' _ => rw [hx] at g; exact ⟨a, h', g⟩
  | _ => rw [hx] at hk; exact absurd hk (by simp [HRes.kind])

example : ∃ i h, (instAt false i (applyOps sampleOps bootView) ⋆ lost) h :=
  goodRun_ok (boot_triple.bind fun i => ops_triple sampleOps false i bootView) (h := fun _ => none) (xs := List.range' 1 20) (fun _ => rfl)
    (by decide +kernel)

example : ((applyOps sampleOps bootView).dirs, (applyOps sampleOps bootView).stack.length, (applyOps sampleOps bootView).locals[97]?) =
    ([['/', 'a'], ['/', 'b']], 1, some (some ['x'])) := by decide +kernel

/-- EXIT inside a called label, run. -/
example : ((boot >>= fun i => callEnter i >>= fun i' => runOps sampleOps i' >>= instExit 1).exec (fun _ => none)
    (List.range' 1 20)).kind = 1 := by decide +kernel

/-- EXIT elsewhere, run. -/
example : ((boot >>= fun i => runOps sampleOps i >>= instExit 1).exec (fun _ => none) (List.range' 1 20)).kind = 0 := by decide +kernel

end PBat
