import Verif.Spec.Mkdir
import Verif.Spec.Env
/-
C57: MD makes the directory and all the missing directories on the way to it.
-/
namespace PBat
open Spec

/-- One directory, from its names. -/
def mkStep (may : List (List Char) → Bool) (c : List (List Char)) (t : Tree) : Tree :=
  if ¬ t.IsDir c ∧ c ∉ t.files ∧ t.IsDir c.dropLast ∧ may c = true then { t with dirs := t.dirs ++ [c] } else t

/-- The directories `C/c₁`, `C/c₁/c₂`, … one after the other. -/
def mkRun (may : List (List Char) → Bool) : List (List Char) → List (List Char) → Tree → Tree
  | _, [], t => t
  | C, c :: cs, t => mkRun may (C ++ [c]) cs (mkStep may (C ++ [c]) t)

theorem mkStep_idem (may : List (List Char) → Bool) (c : List (List Char)) (t : Tree) : mkStep may c (mkStep may c t) = mkStep may c t := by
  unfold mkStep
  split
  · rw [if_neg]
    intro h
    exact h.1 (.inr (by simp))
  · rfl

theorem mkStep_sys (may : List (List Char) → Bool) (t : Tree) (p : List Char) :
    (if (treeMk may).isDir t p then t else ((treeMk may).mkdir t p).1) = mkStep may (comps p) t := by
  unfold treeMk mkStep
  simp only [decide_eq_true_eq]
  split
  · next h => rw [if_neg (fun h' => h'.1 h)]
  · split <;> rfl

theorem makeDirsLoop_tree (may : List (List Char) → Bool) : ∀ (s pre cur : List Char) (C : List (List Char)) (t : Tree),
    (∀ s, comps (pre ++ s) = C ++ compsGo cur s) → mkStep may C t = t → (pre = [] → C = [] ∧ cur = []) →
    mkStep may (comps (pre ++ s)) (makeDirsLoop (treeMk may) pre s t) = mkRun may C (compsGo cur s) t
  | [], pre, cur, C, t, h, hC, _ => by
    rw [h]
    unfold makeDirsLoop compsGo
    split
    · rw [List.append_nil]; exact hC
    · rfl
  | c :: s, pre, cur, C, t, h, hC, hp => by
    unfold makeDirsLoop
    have e : pre ++ c :: s = (pre ++ [c]) ++ s := by simp
    have hcomp : comps pre = C ++ compsGo cur [] := by simpa using h []
    by_cases hc : c = '/'
    · have hnext : ∀ s, comps ((pre ++ [c]) ++ s) = C ++ (if cur = [] then compsGo [] s else cur :: compsGo [] s) := by
        intro s
        have := h (c :: s)
        rw [compsGo, if_pos hc] at this
        simpa using this
      by_cases hcur : cur = []
      · rw [e, compsGo, if_pos hc, if_pos hcur]
        have hstep : (if c = '/' ∧ pre ≠ [] then makeDirsLoop (treeMk may) (pre ++ [c]) s (if (treeMk may).isDir t pre = true then t else ((treeMk may).mkdir t pre).1)
            else makeDirsLoop (treeMk may) (pre ++ [c]) s t) = makeDirsLoop (treeMk may) (pre ++ [c]) s t := by
          split
          · rw [mkStep_sys, hcomp, hcur]
            simp [compsGo, hC]
          · rfl
        rw [hstep]
        refine makeDirsLoop_tree may s (pre ++ [c]) [] C t ?_ hC (by simp)
        intro s
        rw [hnext, if_pos hcur]
      · have hpre : pre ≠ [] := fun h => hcur (hp h).2
        rw [e, compsGo, if_pos hc, if_neg hcur, if_pos ⟨hc, hpre⟩, mkStep_sys, hcomp]
        rw [show compsGo cur [] = [cur] by simp [compsGo, hcur]]
        refine makeDirsLoop_tree may s (pre ++ [c]) [] (C ++ [cur]) _ ?_ (mkStep_idem _ _ _) (by simp)
        intro s
        rw [hnext, if_neg hcur]
        simp
    · rw [if_neg (fun h => hc h.1), e, compsGo, if_neg hc]
      refine makeDirsLoop_tree may s (pre ++ [c]) (cur ++ [c]) C t ?_ hC (by simp)
      intro s
      have := h (c :: s)
      rw [compsGo, if_neg hc] at this
      simpa using this

/-- The tree after `pBat_CmdMakeDirs`. -/
theorem makeDirs_tree (may : List (List Char) → Bool) (t : Tree) (p : List Char) :
    (makeDirs (treeMk may) t p).1 = mkRun may [] (comps p) t := by
  rw [show comps p = compsGo [] p from rfl, ← makeDirsLoop_tree may p [] [] [] t (by intro s; rfl) (by unfold mkStep; simp [Tree.IsDir]) (by simp)]
  rw [List.nil_append, ← mkStep_sys]
  unfold makeDirs
  simp only
  by_cases h : (treeMk may).isDir (makeDirsLoop (treeMk may) [] p t) p = true
  · rw [if_pos h, if_pos h]
  · rw [if_neg h, if_neg h]

theorem makeDirs_level (may : List (List Char) → Bool) (t : Tree) (p : List Char) :
    (makeDirs (treeMk may) t p).2 = 0 ↔ (makeDirs (treeMk may) t p).1.IsDir (comps p) := by
  unfold makeDirs
  simp only
  split
  · next h => exact ⟨fun _ => by simpa [treeMk] using h, fun _ => rfl⟩
  · next h =>
    generalize makeDirsLoop (treeMk may) [] p t = t' at *
    have h : ¬ t'.IsDir (comps p) := by simpa [treeMk] using h
    simp only [treeMk]
    split
    · exact ⟨fun _ => .inr (by simp), fun _ => rfl⟩
    · exact ⟨fun h => by simp at h, fun h' => absurd h' h⟩

/-- Everything along the way. -/
theorem mkRun_spec (may : List (List Char) → Bool) : ∀ (cs C : List (List Char)) (t : Tree), t.Ok →
    (mkRun may C cs t).files = t.files ∧ (mkRun may C cs t).Ok ∧
    ∀ c, (mkRun may C cs t).IsDir c ↔ t.IsDir c ∨
      (t.IsDir C ∧ ∃ a b, cs = a ++ b ∧ a ≠ [] ∧ c = C ++ a ∧ ∀ a' b', a = a' ++ b' → a' ≠ [] → Possible may t (C ++ a'))
  | [], C, t, ht => ⟨rfl, ht, fun c => ⟨.inl, by
      rintro (h | ⟨-, a, b, h, ha, -⟩)
      · exact h
      · simp at h; exact absurd h.1 ha⟩⟩
  | x :: cs, C, t, ht => by
    have hs : (mkStep may (C ++ [x]) t).files = t.files ∧ (mkStep may (C ++ [x]) t).Ok ∧
        ∀ c, (mkStep may (C ++ [x]) t).IsDir c ↔ t.IsDir c ∨ (c = C ++ [x] ∧ t.IsDir C ∧ Possible may t (C ++ [x])) := by
      unfold mkStep
      split
      · next h =>
        refine ⟨rfl, ?_, ?_⟩
        · intro c hc
          rcases List.mem_append.1 hc with hc | hc
          · exact ⟨(ht c hc).1, fun hh => List.mem_append_left _ ((ht c hc).2 hh)⟩
          · obtain rfl : c = C ++ [x] := by simpa using hc
            refine ⟨by simp, fun hne => List.mem_append_left _ ?_⟩
            rcases h.2.2.1 with h' | h'
            · exact absurd h' hne
            · exact h'
        · intro c
          have hd : t.IsDir C := by simpa using h.2.2.1
          unfold Tree.IsDir
          simp only [List.mem_append, List.mem_singleton]
          constructor
          · rintro (h1 | h1 | h1)
            · exact .inl (.inl h1)
            · exact .inl (.inr h1)
            · exact .inr ⟨h1, hd, .inr ⟨h.2.1, h.2.2.2⟩⟩
          · rintro ((h1 | h1) | h1)
            · exact .inl h1
            · exact .inr (.inl h1)
            · exact .inr (.inr h1.1)
      · next h =>
        refine ⟨rfl, ht, fun c => ⟨.inl, ?_⟩⟩
        rintro (h1 | ⟨rfl, h1, h2⟩)
        · exact h1
        · rcases h2 with h2 | h2
          · exact h2
          · apply Classical.byContradiction
            intro h3
            exact h ⟨h3, h2.1, by simpa using h1, h2.2⟩
    obtain ⟨s1, s2, s3⟩ := hs
    obtain ⟨i1, i2, i3⟩ := mkRun_spec may cs (C ++ [x]) _ s2
    refine ⟨i1.trans s1, i2, fun c => ?_⟩
    rw [show mkRun may C (x :: cs) t = mkRun may (C ++ [x]) cs (mkStep may (C ++ [x]) t) from rfl, i3]
    have hup : t.IsDir (C ++ [x]) → t.IsDir C := by
      intro h
      have h : C ++ [x] ∈ t.dirs := by
        rcases h with h | h
        · simp at h
        · exact h
      by_cases hC : C = []
      · exact .inl hC
      · exact .inr (by simpa using (ht _ h).2 (by simpa using hC))
    -- what was possible beyond `C/x` still is
    have hposs : ∀ a', a' ≠ [] → (Possible may (mkStep may (C ++ [x]) t) (C ++ [x] ++ a') ↔ Possible may t (C ++ x :: a')) := by
      intro a' ha'
      unfold Possible
      rw [s1, s3]
      rw [show C ++ [x] ++ a' = C ++ x :: a' by simp]
      constructor
      · rintro ((h | ⟨h, -⟩) | h)
        · exact .inl h
        · exfalso
          have := congrArg List.length h
          simp at this
          exact ha' this
        · exact .inr h
      · rintro (h | h)
        · exact .inl (.inl h)
        · exact .inr h
    constructor
    · rintro (h | ⟨h1, a, b, rfl, ha, rfl, hall⟩)
      · rcases (s3 c).1 h with h | ⟨rfl, h1, h2⟩
        · exact .inl h
        · refine .inr ⟨h1, [x], cs, rfl, by simp, rfl, ?_⟩
          intro a' b' h3 h4
          cases a' with
          | nil => exact absurd rfl h4
          | cons y a' =>
            simp at h3
            obtain ⟨rfl, rfl, rfl⟩ := h3
            exact h2
      · have hx := (s3 _).1 h1
        have hCx : t.IsDir C ∧ Possible may t (C ++ [x]) := by
          rcases hx with h | ⟨-, h1, h2⟩
          · exact ⟨hup h, .inl h⟩
          · exact ⟨h1, h2⟩
        refine .inr ⟨hCx.1, x :: a, b, rfl, by simp, by simp, ?_⟩
        intro a' b' h3 h4
        cases a' with
        | nil => exact absurd rfl h4
        | cons y a' =>
          simp only [List.cons_append, List.cons.injEq] at h3
          obtain ⟨rfl, h3⟩ := h3
          by_cases ha' : a' = []
          · subst ha'; exact hCx.2
          · exact (hposs a' ha').1 (hall a' b' h3 ha')
    · rintro (h | ⟨h1, a, b, h2, ha, rfl, hall⟩)
      · exact .inl ((s3 c).2 (.inl h))
      · cases a with
        | nil => exact absurd rfl ha
        | cons y a =>
          simp only [List.cons_append, List.cons.injEq] at h2
          obtain ⟨rfl, rfl⟩ := h2
          have hx : (mkStep may (C ++ [x]) t).IsDir (C ++ [x]) := (s3 _).2 (.inr ⟨rfl, h1, hall [x] a rfl (by simp)⟩)
          by_cases ha' : a = []
          · subst ha'
            exact .inl hx
          · refine .inr ⟨hx, a, b, rfl, ha', by simp, ?_⟩
            intro a' b' h3 h4
            exact (hposs a' h4).2 (hall (x :: a') b' (by simp [h3]) (by simp))

/-- The directories there afterwards: those there before, and those on the way to the directory asked for up to the first that can neither be found nor made.
Nothing else is touched. -/
theorem C57_made (may : List (List Char) → Bool) (t : Tree) (ht : t.Ok) (p : List Char) :
    (makeDirs (treeMk may) t p).1.files = t.files ∧ (makeDirs (treeMk may) t p).1.Ok ∧
    ∀ c, (makeDirs (treeMk may) t p).1.IsDir c ↔ t.IsDir c ∨
      (c <+: comps p ∧ ∀ c', c' <+: c → Possible may t c') := by
  rw [makeDirs_tree]
  obtain ⟨h1, h2, h3⟩ := mkRun_spec may (comps p) [] t ht
  refine ⟨h1, h2, fun c => ?_⟩
  rw [h3]
  constructor
  · rintro (h | ⟨-, a, b, h4, h5, h6, h7⟩)
    · exact .inl h
    · refine .inr ⟨⟨b, by rw [h6, h4]; simp⟩, ?_⟩
      rintro c' ⟨d, h⟩
      by_cases hc : c' = []
      · exact .inl (.inl hc)
      · exact h7 c' d (by rw [h, h6]; simp) hc
  · rintro (h | ⟨⟨b, h4⟩, h5⟩)
    · exact .inl h
    · by_cases hc : c = []
      · exact .inl (.inl hc)
      · exact .inr ⟨.inl rfl, c, b, h4.symm, hc, by simp, fun a' b' h _ => h5 a' ⟨b', h.symm⟩⟩

theorem tree_up (t : Tree) (ht : t.Ok) : ∀ (b c : List (List Char)), t.IsDir (c ++ b) → t.IsDir c := by
  intro b
  induction b with
  | nil => intro c h; simpa using h
  | cons x b ih =>
    intro c h
    have h := ih (c ++ [x]) (by simpa using h)
    rcases h with h | h
    · simp at h
    · by_cases hb : c = []
      · exact .inl hb
      · have := (ht _ h).2 (by simpa using hb)
        rw [List.dropLast_concat] at this
        exact .inr this

/-- The error level is 0 exactly when every directory on the way is there or can be made; the directory is then there, with all those on the way.  -/
theorem C57_level (may : List (List Char) → Bool) (t : Tree) (ht : t.Ok) (p : List Char) :
    ((makeDirs (treeMk may) t p).2 = 0 ↔ ∀ c, c <+: comps p → Possible may t c) ∧
    ((makeDirs (treeMk may) t p).2 = 0 → ∀ c, (makeDirs (treeMk may) t p).1.IsDir c ↔ t.IsDir c ∨ c <+: comps p) ∧
    ((makeDirs (treeMk may) t p).2 = 0 ∨ (makeDirs (treeMk may) t p).2 = 13) := by
  obtain ⟨-, -, h⟩ := C57_made may t ht p
  have key : (makeDirs (treeMk may) t p).2 = 0 ↔ ∀ c, c <+: comps p → Possible may t c := by
    rw [makeDirs_level, h]
    constructor
    · rintro (h1 | ⟨-, h1⟩) c hc
      · obtain ⟨b, hb⟩ := hc
        rw [← hb] at h1
        exact .inl (tree_up t ht b c h1)
      · exact h1 c hc
    · intro h1
      exact .inr ⟨List.prefix_rfl, h1⟩
  refine ⟨key, fun h0 c => ?_, ?_⟩
  · rw [h]
    constructor
    · rintro (h1 | ⟨h1, -⟩)
      · exact .inl h1
      · exact .inr h1
    · rintro (h1 | h1)
      · exact .inl h1
      · exact .inr ⟨h1, fun c' hc' => key.1 h0 c' (hc'.trans h1)⟩
  · unfold makeDirs
    simp only
    split
    · exact .inl rfl
    · split
      · exact .inl rfl
      · exact .inr rfl

/-! ### `MD a/b` is `MD a` then `MD a/b` -/

theorem mkRun_append (may : List (List Char) → Bool) : ∀ (a b C : List (List Char)) (t : Tree),
    mkRun may C (a ++ b) t = mkRun may (C ++ a) b (mkRun may C a t)
  | [], b, C, t => by simp [mkRun]
  | x :: a, b, C, t => by
    simp only [List.cons_append, mkRun]
    rw [mkRun_append may a b]
    simp

/-- Without the parent nothing is made. -/
theorem mkRun_stuck (may : List (List Char) → Bool) : ∀ (a C : List (List Char)) (t : Tree), t.Ok → ¬ t.IsDir C → mkRun may C a t = t
  | [], _, _, _, _ => rfl
  | x :: a, C, t, ht, h => by
    have hs : mkStep may (C ++ [x]) t = t := by
      unfold mkStep
      rw [if_neg]
      intro h'
      exact h (by simpa using h'.2.2.1)
    rw [mkRun, hs]
    exact mkRun_stuck may a _ t ht (fun h' => h (tree_up t ht [x] C h'))

theorem mkRun_twice (may : List (List Char) → Bool) : ∀ (a C : List (List Char)) (t : Tree), t.Ok → mkRun may C a (mkRun may C a t) = mkRun may C a t
  | [], _, _, _ => rfl
  | x :: a, C, t, ht => by
    have hm : ∀ (a C : List (List Char)) (t : Tree), t.Ok → ∀ c, t.IsDir c → (mkRun may C a t).IsDir c :=
      fun a C t ht c hc => ((mkRun_spec may a C t ht).2.2 c).2 (.inl hc)
    have hok : (mkStep may (C ++ [x]) t).Ok := (mkRun_spec may [x] C t ht).2.1
    simp only [mkRun]
    by_cases hd : (mkStep may (C ++ [x]) t).IsDir (C ++ [x])
    · have hs : mkStep may (C ++ [x]) (mkRun may (C ++ [x]) a (mkStep may (C ++ [x]) t)) = mkRun may (C ++ [x]) a (mkStep may (C ++ [x]) t) := by
        rw [mkStep, if_neg]
        intro h
        exact h.1 (hm _ _ _ hok _ hd)
      rw [hs]
      exact mkRun_twice may a _ _ hok
    · rw [mkRun_stuck may a _ _ hok hd, mkStep_idem, mkRun_stuck may a _ _ hok hd]

theorem compsGo_append (s : List Char) : ∀ (p cur : List Char), compsGo cur (p ++ '/' :: s) = compsGo cur p ++ comps s
  | [], cur => by
    simp only [List.nil_append, compsGo, comps, if_pos]
    split <;> simp
  | c :: p, cur => by
    simp only [List.cons_append, compsGo, compsGo_append s p]
    split
    · split <;> simp
    · rfl

/-- As the manual says: `MD a/b` is the same as `MD a` followed by `MD a/b`. -/
theorem C57_documented (may : List (List Char) → Bool) (t : Tree) (ht : t.Ok) (p q : List Char) :
    makeDirs (treeMk may) t (p ++ '/' :: q) = makeDirs (treeMk may) (makeDirs (treeMk may) t p).1 (p ++ '/' :: q) := by
  have h1 : (makeDirs (treeMk may) t (p ++ '/' :: q)).1 = (makeDirs (treeMk may) (makeDirs (treeMk may) t p).1 (p ++ '/' :: q)).1 := by
    rw [makeDirs_tree, makeDirs_tree, makeDirs_tree]
    have : comps (p ++ '/' :: q) = comps p ++ comps q := compsGo_append q p []
    rw [this, mkRun_append, mkRun_append, mkRun_twice may _ _ _ ht]
  have ht' : (makeDirs (treeMk may) t p).1.Ok := (C57_made may t ht p).2.1
  refine Prod.ext h1 ?_
  have l1 := makeDirs_level may t (p ++ '/' :: q)
  have l2 := makeDirs_level may (makeDirs (treeMk may) t p).1 (p ++ '/' :: q)
  rw [← h1, ← l1] at l2
  rcases (C57_level may t ht (p ++ '/' :: q)).2.2 with h | h
  · rw [h, l2.2 h]
  · rcases (C57_level may _ ht' (p ++ '/' :: q)).2.2 with h' | h'
    · rw [l2.1 h'] at h; cases h
    · rw [h, h']

/-- MD with several names makes each in turn, up to the first that fails. -/
theorem C57_names {W : Type} (sys : MkSys W) (full : List Char → List Char) (cmd : List Char) (ts : List (List Char)) (t : List Char) (w : W)
    (hh : ∀ x ∈ ts, x ≠ "/?".toList) (ht : t ≠ "/?".toList) :
    cmdMd sys full (cmd :: (ts ++ [t])) w =
      if (cmdMd sys full (cmd :: ts) w).2 = 0 then makeDirs sys (cmdMd sys full (cmd :: ts) w).1 (full t) else cmdMd sys full (cmd :: ts) w := by
  unfold cmdMd
  simp only
  induction ts generalizing w with
  | nil =>
    simp only [mdLoop, List.nil_append, if_true]
    rw [if_neg ht]
    split
    · next h => rw [← h]
    · rfl
  | cons x ts ih =>
    have hr : ∀ ts, mdLoop sys full (x :: ts) w =
        if (makeDirs sys w (full x)).2 = 0 then mdLoop sys full ts (makeDirs sys w (full x)).1 else makeDirs sys w (full x) := by
      intro ts
      rw [mdLoop, if_neg (hh x (by simp))]
    rw [List.cons_append, hr, hr]
    split
    · exact ih _ (fun y hy => hh y (by simp [hy]))
    · rfl

/-- MD without a name is accepted in silence (RD is not). -/
theorem C57_no_name {W : Type} (sys : MkSys W) (full : List Char → List Char) (cmd : List Char) (w : W) : cmdMd sys full [cmd] w = (w, 0) := rfl

/-- A case: `MD /a/b//c` when `/a` is there; and when a file `/a/b` is in the way. -/
example : Tree.Ok ⟨[[['a']]], [[['a'], ['f']]]⟩ ∧
    (makeDirs (treeMk fun _ => true) ⟨[[['a']]], [[['a'], ['f']]]⟩ "/a/b//c".toList).1.dirs = [[['a']], [['a'], ['b']], [['a'], ['b'], ['c']]] ∧
    (makeDirs (treeMk fun _ => true) ⟨[[['a']]], [[['a'], ['f']]]⟩ "/a/b//c".toList).2 = 0 ∧
    (makeDirs (treeMk fun _ => true) ⟨[[['a']]], [[['a'], ['b']]]⟩ "/a/b//c".toList).1.dirs = [[['a']]] ∧
    (makeDirs (treeMk fun _ => true) ⟨[[['a']]], [[['a'], ['b']]]⟩ "/a/b//c".toList).2 = 13 := by
  refine ⟨?_, by decide, by decide, by decide, by decide⟩
  intro c hc
  obtain rfl : c = [['a']] := by simpa using hc
  simp

end PBat
