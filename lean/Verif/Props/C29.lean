import Verif.Lemmas.Dir
/-
C29: the directory stack.
-/
namespace PBat
open Spec

/-- The mathematical stack: `PUSHD` puts the directory left on the stack, `POPD` takes the last one and goes there, and
nothing else touches it.  `move` says where a change of directory leads (`none`: refused). -/
def specPush (move : List Char → List Char → Option (List Char)) (s : Dirs) : List (List Char) → Dirs
  | [] => s
  | p :: ps =>
    match move s.cur p with
    | some d => specPush move ⟨d, s.cur :: s.stack⟩ ps
    | none => s

def specStep (move : List Char → List Char → Option (List Char)) (s : Dirs) : DirCmd → Dirs
  | .pushd ps => specPush move s ps
  | .popd => match s.stack with
    | [] => s
    | d :: st => ⟨d, st⟩
  | .cd p => match move s.cur p with
    | some d => ⟨d, s.stack⟩
    | none => s

def specRun (cap : Nat) : Dirs → List (DirWorld × DirCmd) → Dirs
  | s, [] => s
  | s, (w, c) :: r => specRun cap (specStep (setCurrentDir cap w.dirExists) s c) r

/-- A directory taken by `POPD` still exists and is not the empty text. -/
def PopSafe (w : DirWorld) : DirCmd → List (List Char) → Prop
  | .popd, d :: _ => w.dirExists d = true ∧ d ≠ []
  | _, _ => True

instance (w c st) : Decidable (PopSafe w c st) := by unfold PopSafe; split <;> infer_instance

/-- During the commands no copy of a path fails, and each directory taken by `POPD` still exists and is not the empty
text. -/
def Undisturbed (cap : Nat) : Dirs → List (DirWorld × DirCmd) → Prop
  | _, [] => True
  | s, (w, c) :: r => (∀ d, w.alloc d = true) ∧
      PopSafe w c s.stack ∧
      Undisturbed cap (specStep (setCurrentDir cap w.dirExists) s c) r

/-- Directories that can be current: empty or canonical, and within the buffer. -/
def CurDir (cap : Nat) (d : List Char) : Prop := (d = [] ∨ CanonDir d) ∧ d.length < cap

theorem setCurrentDir_dir {cap : Nat} {ex : List Char → Bool} {cur line d : List Char} (hc : 2 ≤ cap) (h : CurDir cap cur)
    (hs : setCurrentDir cap ex cur line = some d) : CurDir cap d := by
  have hform : ∀ t : List Char, (∃ r, t = '/' :: r) → t.length < cap → CurDir cap (canonicalize t) := by
    rintro t ⟨r, rfl⟩ hl
    refine ⟨canonicalize_form r, ?_⟩
    have := canonLoop_length [] ('/' :: r)
    simp only [canonicalize] at *
    simp only [List.length_nil] at this
    omega
  unfold setCurrentDir at hs
  obtain ⟨k, hk⟩ : ∃ k, cap - 1 = k + 1 := ⟨cap - 2, by omega⟩
  split at hs
  · rename_i ha
    injection hs with hs
    subst hs
    rw [Bool.and_eq_true] at ha
    apply hform
    · have hl : ∃ r, line = '/' :: r := by
        have := ha.1
        unfold absolute at this
        split at this
        · exact absurd this (by simp)
        · exact ⟨_, rfl⟩
        · exact absurd this (by simp)
      obtain ⟨r, rfl⟩ := hl
      rw [hk]; exact ⟨_, rfl⟩
    · simp; omega
  · split at hs
    · simp only at hs
      split at hs
      · injection hs with hs
        subst hs
        apply hform
        · have : ∃ r, cur ++ '/' :: line = '/' :: r := by
            rcases h.1 with rfl | hcd
            · exact ⟨line, rfl⟩
            · obtain ⟨r, rfl⟩ := canon_head hcd
              exact ⟨_, rfl⟩
          obtain ⟨r, e⟩ := this
          rw [e, hk]; exact ⟨_, rfl⟩
        · simp; omega
      · exact absurd hs (by simp)
    · exact absurd hs (by simp)

theorem setCurrentDir_back {cap : Nat} {ex : List Char → Bool} {cur d : List Char} (h : CurDir cap d) (hne : d ≠ [])
    (he : ex d = true) : setCurrentDir cap ex cur d = some d := by
  have hcd : CanonDir d := h.1.resolve_left hne
  unfold setCurrentDir
  rw [canon_absolute hcd, he]
  simp only [Bool.and_self, if_true]
  rw [List.take_of_length_le (by have := h.2; omega), canonicalize_canon hcd]

/-- The states correspond. -/
def Same (cap : Nat) (s : DirState) (a : Dirs) : Prop :=
  s.cur = a.cur ∧ s.paths = a.stack.reverse ∧ CurDir cap a.cur ∧ ∀ d ∈ a.stack, CurDir cap d

theorem pushd_same {cap : Nat} (hc : 2 ≤ cap) {w : DirWorld} (hw : ∀ d, w.alloc d = true) (ps : List (List Char))
    {s : DirState} {a : Dirs} (h : Same cap s a) :
    Same cap (pushdLoop cap w s ps).1 (specPush (setCurrentDir cap w.dirExists) a ps) := by
  induction ps generalizing s a with
  | nil => exact h
  | cons p ps ih =>
    obtain ⟨h1, h2, h3, h4⟩ := h
    simp only [pushdLoop, specPush]
    rw [h1]
    cases hm : setCurrentDir cap w.dirExists a.cur p with
    | none => exact ⟨h1, h2, h3, h4⟩
    | some d =>
      simp only
      apply ih
      refine ⟨rfl, ?_, setCurrentDir_dir hc h3 hm, ?_⟩
      · simp [pushDir, hw, h2]
      · intro x hx
        rcases List.mem_cons.1 hx with rfl | hx
        · exact h3
        · exact h4 x hx

/-- For every sequence of `PUSHD` (with any number of paths), `POPD` and `CD` commands, with directories appearing and
disappearing in between, the current directory and the stack are those of the mathematical stack.  Missing: a `POPD`
whose directory has disappeared (`C29_gone`, `C29_elsewhere`) or is the root reached by `..` (`C29_root`), failures of
allocation (`C29_alloc`). -/
theorem C29_stack_partial (cap : Nat) (hc : 2 ≤ cap) (cmds : List (DirWorld × DirCmd)) (cur : List Char)
    (hcur : CurDir cap cur) (stack : List (List Char)) (hst : ∀ d ∈ stack, CurDir cap d)
    (hu : Undisturbed cap ⟨cur, stack⟩ cmds) :
    dirRun cap ⟨cur, stack.reverse⟩ cmds =
      ⟨(specRun cap ⟨cur, stack⟩ cmds).cur, (specRun cap ⟨cur, stack⟩ cmds).stack.reverse⟩ := by
  have key : ∀ (cmds : List (DirWorld × DirCmd)) (s : DirState) (a : Dirs), Same cap s a → Undisturbed cap a cmds →
      Same cap (dirRun cap s cmds) (specRun cap a cmds) := by
    intro cmds
    induction cmds with
    | nil => intro s a h _; exact h
    | cons x r ih =>
      obtain ⟨w, c⟩ := x
      intro s a h hu
      obtain ⟨hw, hp, hr⟩ := hu
      simp only [dirRun, specRun]
      apply ih _ _ _ hr
      cases c with
      | pushd ps => exact pushd_same hc hw ps h
      | cd p =>
        obtain ⟨h1, h2, h3, h4⟩ := h
        simp only [dirStep, specStep]
        rw [h1]
        cases hm : setCurrentDir cap w.dirExists a.cur p with
        | none => exact ⟨h1, h2, h3, h4⟩
        | some d => exact ⟨rfl, h2, setCurrentDir_dir hc h3 hm, h4⟩
      | popd =>
        obtain ⟨h1, h2, h3, h4⟩ := h
        simp only [dirStep, specStep, popdCmd, popDir, h2, List.getLast?_reverse]
        cases hs : a.stack with
        | nil => simp only [List.head?_nil, Option.map_none]; exact ⟨h1, h2, h3, h4⟩
        | cons d st =>
          rw [hs] at hp h4
          simp only [PopSafe] at hp
          have hd := h4 d (by simp)
          simp only [List.head?_cons, Option.map_some]
          rw [setCurrentDir_back hd hp.2 hp.1]
          refine ⟨rfl, ?_, hd, fun x hx => h4 x (by simp [hx])⟩
          simp
  have := key cmds ⟨cur, stack.reverse⟩ ⟨cur, stack⟩ ⟨rfl, rfl, hcur, hst⟩ hu
  obtain ⟨e1, e2, -, -⟩ := this
  cases hd : dirRun cap ⟨cur, stack.reverse⟩ cmds with
  | mk c p =>
    rw [hd] at e1 e2
    simp only at e1 e2
    rw [e1, e2]

/-- Commands that never take more than they put: from an empty stack of their own they come to `cur'` and leave their
own stack empty. -/
def runAbove (cap : Nat) : Dirs → List (DirWorld × DirCmd) → Option Dirs
  | s, [] => some s
  | s, (w, c) :: r =>
    match c, s.stack with
    | .popd, [] => none
    | _, _ => runAbove cap (specStep (setCurrentDir cap w.dirExists) s c) r

theorem specPush_above (move : List Char → List Char → Option (List Char)) (base : List (List Char)) (ps : List (List Char))
    (s : Dirs) : specPush move ⟨s.cur, s.stack ++ base⟩ ps =
      ⟨(specPush move s ps).cur, (specPush move s ps).stack ++ base⟩ := by
  induction ps generalizing s with
  | nil => rfl
  | cons p ps ih =>
    simp only [specPush]
    cases move s.cur p with
    | none => rfl
    | some d => exact ih ⟨d, s.cur :: s.stack⟩

theorem specRun_above (cap : Nat) (base : List (List Char)) (cmds : List (DirWorld × DirCmd)) (s s' : Dirs)
    (h : runAbove cap s cmds = some s') : specRun cap ⟨s.cur, s.stack ++ base⟩ cmds = ⟨s'.cur, s'.stack ++ base⟩ := by
  induction cmds generalizing s with
  | nil => simp only [runAbove, Option.some.injEq] at h; subst h; rfl
  | cons x r ih =>
    obtain ⟨w, c⟩ := x
    simp only [specRun]
    cases c with
    | pushd ps =>
      simp only [runAbove] at h
      simp only [specStep] at *
      rw [specPush_above, ih _ h]
    | cd p =>
      simp only [runAbove] at h
      simp only [specStep] at *
      cases hm : setCurrentDir cap w.dirExists s.cur p with
      | none => rw [hm] at h; exact ih _ h
      | some d => rw [hm] at h; exact ih ⟨d, s.stack⟩ h
    | popd =>
      cases hs : s.stack with
      | nil => simp only [runAbove, hs] at h; exact absurd h (by simp)
      | cons d st =>
        simp only [runAbove, hs] at h
        simp only [specStep, hs, List.cons_append] at *
        exact ih ⟨d, st⟩ h

/-- Nesting: a `PUSHD` that succeeds, any commands that put and take back their own directories, then `POPD`, come back
to the directory and to the stack there were before.  Same conditions as `C29_stack_partial`. -/
theorem C29_nested_partial (cap : Nat) (hc : 2 ≤ cap) (w w' : DirWorld) (p cur d cur' : List Char)
    (mid : List (DirWorld × DirCmd)) (hcur : CurDir cap cur) (stack : List (List Char))
    (hst : ∀ d ∈ stack, CurDir cap d) (hd : setCurrentDir cap w.dirExists cur p = some d)
    (hmid : runAbove cap ⟨d, []⟩ mid = some ⟨cur', []⟩)
    (hu : Undisturbed cap ⟨cur, stack⟩ ((w, .pushd [p]) :: mid ++ [(w', .popd)])) :
    dirRun cap ⟨cur, stack.reverse⟩ ((w, .pushd [p]) :: mid ++ [(w', .popd)]) = ⟨cur, stack.reverse⟩ := by
  rw [C29_stack_partial cap hc _ cur hcur stack hst hu]
  have hsplit : ∀ (a : Dirs) (x y : List (DirWorld × DirCmd)), specRun cap a (x ++ y) = specRun cap (specRun cap a x) y := by
    intro a x y
    induction x generalizing a with
    | nil => rfl
    | cons z x ih => exact ih _
  have h1 := specRun_above cap (cur :: stack) mid ⟨d, []⟩ ⟨cur', []⟩ hmid
  simp only [List.nil_append] at h1
  rw [hsplit]
  simp only [specRun, specStep, specPush, hd, h1]

/-- `POPD` on an empty stack changes nothing and reports failure, in every world. -/
theorem C29_empty (cap : Nat) (w : DirWorld) (cur : List Char) : dirStep cap w ⟨cur, []⟩ .popd = (⟨cur, []⟩, false) := rfl

/-- `PUSHD` to a path that cannot be entered changes nothing and reports failure. -/
theorem C29_refused (cap : Nat) (w : DirWorld) (s : DirState) (p : List Char) (ps : List (List Char))
    (h : setCurrentDir cap w.dirExists s.cur p = none) : dirStep cap w s (.pushd (p :: ps)) = (s, false) := by
  simp only [dirStep, pushdLoop, h]

/-! ### What fails -/

/-- When the directory to come back to has disappeared, `POPD` stays where it is and the entry is lost. -/
theorem C29_gone (cap : Nat) (hc : 2 ≤ cap) (cur d : List Char) (st : List (List Char)) :
    dirStep cap ⟨fun _ => false, fun _ => true⟩ ⟨cur, st ++ [d]⟩ .popd = (⟨cur, st⟩, false) := by
  have h : setCurrentDir cap (fun _ => false) cur d = none := by
    unfold setCurrentDir
    simp
  simp [dirStep, popdCmd, popDir, h]

/-- When it has disappeared and there is a directory of that name under the current one, `POPD` goes there: the stack
says `/a`, the current directory becomes `/b/a`. -/
theorem C29_elsewhere (cap : Nat) (hc : 100 ≤ cap) :
    dirStep cap ⟨fun d => d == "/b//a".toList, fun _ => true⟩ ⟨"/b".toList, ["/a".toList]⟩ .popd =
      (⟨"/b/a".toList, []⟩, true) := by
  have h : setCurrentDir cap (fun d => d == "/b//a".toList) "/b".toList "/a".toList = some "/b/a".toList := by
    unfold setCurrentDir
    rw [if_neg (by decide), if_pos (by have : "/b".toList.length = 2 := by decide
                                       omega)]
    simp only
    rw [List.take_of_length_le (by have : ("/b".toList ++ '/' :: "/a".toList).length = 5 := by decide
                                   omega)]
    decide +kernel
  have e : (⟨"/b".toList, ["/a".toList]⟩ : DirState) = ⟨"/b".toList, [] ++ ["/a".toList]⟩ := rfl
  rw [e]
  simp only [dirStep, popdCmd, popDir, List.getLast?_append, List.getLast?_singleton, Option.some_or, Option.map_some,
    List.dropLast_concat, h]

/-- From the root reached by `CD ..`, `PUSHD /b` then `POPD` does not come back: the current directory stays `/b`. -/
theorem C29_root :
    let w : DirWorld := ⟨fun _ => true, fun _ => true⟩
    dirRun 4096 ⟨"/a".toList, []⟩ [(w, .cd "..".toList), (w, .pushd ["/b".toList]), (w, .popd)] =
      ⟨"/b".toList, []⟩ := by decide +kernel

/-- When the copy of the path cannot be allocated, `PUSHD` changes directory but nothing is put on the stack, and no
failure is reported. -/
theorem C29_alloc :
    dirStep 4096 ⟨fun _ => true, fun _ => false⟩ ⟨"/a".toList, []⟩ (.pushd ["/b".toList]) =
      (⟨"/b".toList, []⟩, true) := by decide +kernel

/-! ### The hypotheses are met -/

example : CurDir 4096 "/usr/lib".toList :=
  ⟨.inr (.inr ⟨["usr".toList, "lib".toList], by simp, by decide, by decide⟩), by decide⟩

example :
    let w : DirWorld := ⟨fun _ => true, fun _ => true⟩
    Undisturbed 4096 ⟨"/a".toList, []⟩ [(w, .pushd ["b".toList, "..".toList]), (w, .popd), (w, .cd "c".toList), (w, .popd)] ∧
    dirRun 4096 ⟨"/a".toList, []⟩ [(w, .pushd ["b".toList, "..".toList]), (w, .popd), (w, .cd "c".toList), (w, .popd)] =
      ⟨"/a".toList, []⟩ := by
  refine ⟨⟨fun _ => rfl, trivial, fun _ => rfl, ?_, fun _ => rfl, trivial, fun _ => rfl, ?_, trivial⟩, by decide +kernel⟩
  · decide +kernel
  · decide +kernel

end PBat
