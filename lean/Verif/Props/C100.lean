import Verif.Props.C21
import Verif.Lemmas.If
import Verif.Lemmas.Def
import Verif.Spec.Mods
/-
C100: modules.
-/
namespace PBat.Mods
open Spec Spec.Mods

/-- A table holds exactly these commands. -/
structure Holds (t : CmdTree Owner) (T : List (CmdEntry Owner)) : Prop where
  sorted : t.Sorted
  distinct : Distinct T
  mem : ∀ e, e ∈ t.entries ↔ e ∈ T
  reg : ∀ e ∈ T, Registered e
  size : 4 ≤ T.length

theorem free_fold {T : List (CmdEntry Owner)} {n : List Char} (h : Free T n) : ¬ ∃ x ∈ T, fold x.name = fold n := by
  rintro ⟨x, hx, he⟩
  refine h x hx ⟨n, [], by simp, he.symm, Or.inr ?_⟩
  intro c hc
  simp at hc

theorem lookup_free {t : CmdTree Owner} {T : List (CmdEntry Owner)} (h : Holds t T) {n : List Char} (hf : Free T n) :
    t.lookup n = .ok none := by
  obtain ⟨o, h1, h2⟩ := lookup_sound n t (fun x hx => h.reg x ((h.mem x).1 hx))
  cases o with
  | none => exact h1
  | some e => exact absurd (h2 e rfl).2 (hf e ((h.mem e).1 (h2 e rfl).1))

theorem register_free (lc : LibC) {t : CmdTree Owner} {T : List (CmdEntry Owner)} (h : Holds t T) {path n : List Char} (hn : n ≠ [])
    (hf : Free T n) : ∃ t', register lc path n t = .ok (t', true) ∧ Holds t' (T ++ [owned path n]) := by
  unfold register
  rw [lookup_free h hf]
  refine ⟨_, rfl, ?_⟩
  have hadd : addCmd T (owned path n) = T ++ [owned path n] := by
    unfold addCmd
    exact if_neg (free_fold hf)
  have hsz := h.size
  have := tableAfter_spec lc [.add (owned path n), .rebuild] t T h.sorted h.distinct h.mem
    ⟨by rw [hadd]; simp; omega, by rw [hadd]; simp; omega, trivial⟩
  simp only [tableAfter, afterOps, hadd] at this
  refine ⟨this.1, this.2.2, this.2.1, ?_, by simp; omega⟩
  intro e he
  rcases List.mem_append.1 he with he | he
  · exact h.reg e he
  · rw [List.mem_singleton] at he
    subst he
    exact Or.inr rfl

theorem registerAll_free (lc : LibC) (path : List Char) (ns : List (List Char)) : ∀ {t : CmdTree Owner} {T : List (CmdEntry Owner)},
    Holds t T → (∀ a n b, ns = a ++ n :: b → n ≠ [] ∧ Free (T ++ a.map (owned path)) n) →
    ∃ t', registerAll lc path ns t = .ok (t', ns.map (fun _ => true), []) ∧ Holds t' (T ++ ns.map (owned path)) := by
  induction ns with
  | nil => intro t T h _; exact ⟨t, rfl, by simpa using h⟩
  | cons n ns ih =>
    intro t T h hf
    obtain ⟨h1, h2⟩ := hf [] n ns rfl
    obtain ⟨t1, hr, ht1⟩ := register_free (path := path) lc h h1 (by simpa using h2)
    obtain ⟨t2, hr2, ht2⟩ := ih ht1 (fun a m b hab => by
      have := hf (n :: a) m b (by rw [hab]; rfl)
      simpa using this)
    refine ⟨t2, ?_, by simpa using ht2⟩
    rw [registerAll, hr]
    simp only
    rw [hr2]
    rfl

theorem loadMod_fits (lc : LibC) {m : Module} {path : List Char} {st : State} {T : List (CmdEntry Owner)} (h : Holds st.table T)
    (hf : Fits T m path) : ∃ t', loadMod lc m path st = .ok ({ loaded := path :: st.loaded, table := t' }, 0, []) ∧
      Holds t' (T ++ m.names.map (owned path)) := by
  obtain ⟨h1, h2, h3⟩ := hf
  obtain ⟨t', hr, ht⟩ := registerAll_free lc path m.names h h3
  refine ⟨t', ?_, ht⟩
  unfold loadMod
  rw [if_neg (by simp [h1]), hr]
  simp only
  rw [h2]
  rfl

theorem folder_eq (d : List Char) : makePath d ['m', 'o', 'd', 'u', 'l', 'e', 's'] = folder d := by
  unfold makePath folder
  cases hd : d.getLast? with
  | none => rw [List.getLast?_eq_none_iff.1 hd]; rfl
  | some c =>
    have hne : d ≠ [] := by rintro rfl; simp at hd
    rw [if_neg hne]
    simp only [Option.some.injEq]
    split
    · rfl
    · rfl

theorem folder_last (d : List Char) : (folder d).getLast? = some 's' := by
  unfold folder
  split
  · rfl
  · split
    · rw [List.getLast?_append]; rfl
    · rw [List.getLast?_append]; rfl

theorem modPath_at {d w p : List Char} (h : At d w p) : modPath (some d) w = .ok p := by
  cases h with
  | root hc =>
    unfold modPath rooted
    rw [if_pos]
    simpa using hc
  | name hc =>
    unfold modPath rooted
    rw [if_neg (by simp [hc])]
    simp only
    rw [folder_eq]
    unfold makePath
    rw [folder_last]
    rfl

theorem modLoop_word (lc : LibC) {files : List Char → Option Module} {home : Option (List Char)} {quiet : Bool} {w : List Char}
    {ws : List (List Char)} {st : State} (ho : ¬ IsOption w) : modLoop lc files home quiet (w :: ws) st =
      match modPath home w with
      | .ub => .ub
      | .hang => .hang
      | .ok path =>
        match files path with
        | none => .ok (st, 1, [.error 1 path])
        | some m =>
          if st.loaded.any (fun x => stricmp path x = 0) then
            if quiet then modLoop lc files home quiet ws st
            else .ok (st, 61, [.error 61 path])
          else
            match loadMod lc m path st with
            | .ub => .ub
            | .hang => .hang
            | .ok (st', code, out) =>
              if code ≠ 0 then .ok (st', code, out)
              else
                match modLoop lc files home quiet ws st' with
                | .ub => .ub
                | .hang => .hang
                | .ok (st'', code, out') => .ok (st'', code, out ++ out') := by
  unfold IsOption at ho
  simp only [not_or] at ho
  rw [modLoop, if_neg (fun h => ho.1 (by rw [stricmp_zero] at h; exact h)), if_neg ho.2.2,
    if_neg (fun h => ho.2.1 (by rw [stricmp_zero] at h; exact h))]
  cases modPath home w with
  | ub => rfl
  | hang => rfl
  | ok path =>
    simp only
    cases files path with
    | none => rfl
    | some m =>
      simp only
      cases loadMod lc m path st with
      | ub => rfl
      | hang => rfl
      | ok x =>
        obtain ⟨a, b, c⟩ := x
        simp only
        cases modLoop lc files home quiet ws a with
        | ub => rfl
        | hang => rfl
        | ok x => rfl

theorem not_loaded {L : List (List Char)} {p : List Char} (h : ∀ x ∈ L, fold x ≠ fold p) :
    ¬ L.any (fun x => stricmp p x = 0) = true := by
  rw [List.any_eq_true]
  rintro ⟨x, hx, he⟩
  simp only [decide_eq_true_eq] at he
  exact h x hx (stricmp_zero.1 he).symm

/-- The words before a failure, or all of them, load their modules, in order. -/
theorem modLoop_loads (lc : LibC) {files : List Char → Option Module} {home : List Char} {quiet : Bool} {ws L L' : List (List Char)}
    {T T' : List (CmdEntry Owner)} (h : LoadsAll files home L T ws L' T') : ∀ {t : CmdTree Owner} (rest : List (List Char)), Holds t T →
    ∃ t', Holds t' T' ∧ modLoop lc files (some home) quiet (ws ++ rest) { loaded := L, table := t } =
      modLoop lc files (some home) quiet rest { loaded := L', table := t' } := by
  induction h with
  | nil => intro t rest ht; exact ⟨t, ht, rfl⟩
  | @cons L T w p ws L' T' m ho hat hm hl hf _ ih =>
    intro t rest ht
    obtain ⟨t1, h1, ht1⟩ := loadMod_fits lc (st := { loaded := L, table := t }) ht hf
    obtain ⟨t2, ht2, h2⟩ := ih rest ht1
    refine ⟨t2, ht2, ?_⟩
    rw [List.cons_append, modLoop_word lc ho, modPath_at hat]
    simp only [hm]
    rw [if_neg (not_loaded hl), h1]
    simp only
    rw [if_neg (by simp), h2]
    cases modLoop lc files (some home) quiet rest { loaded := L', table := t2 } with
    | ub => rfl
    | hang => rfl
    | ok x => obtain ⟨a, b, c⟩ := x; rfl

/-- MOD with modules that are not loaded yet: all of them are loaded, nothing is printed, the status is 0, and the commands are the former ones and
those of the modules. -/
theorem C100_load_partial (lc : LibC) (files : List Char → Option Module) (home : List Char) (ws : List (List Char)) (st : State)
    (T T' : List (CmdEntry Owner)) (L' : List (List Char)) (ht : Holds st.table T)
    (h : LoadsAll files home st.loaded T ws L' T') :
    ∃ t', cmdMod lc files (some home) ws st = .ok ({ loaded := L', table := t' }, 0, []) ∧ Holds t' T' := by
  obtain ⟨t', h1, h2⟩ := modLoop_loads lc (quiet := false) h [] ht
  refine ⟨t', ?_, h1⟩
  unfold cmdMod
  rw [List.append_nil] at h2
  rw [h2]
  rfl

/-- The commands known are those which can be called: a line that calls exactly one of them, none of the others having a longer name
with the same beginning, finds it; a line that calls none finds none. -/
theorem C100_call (t : CmdTree Owner) (T : List (CmdEntry Owner)) (ht : Holds t T) (line : List Char) :
    (∀ e ∈ T, Calls line e → (∀ y ∈ T, Calls line y → y = e) →
      (∀ y ∈ T, codes e.name <+: codes y.name → y = e) → t.lookup line = .ok (some e)) ∧
    ((∀ e ∈ T, ¬ Calls line e) → t.lookup line = .ok none) := by
  refine ⟨?_, fun h => lookup_free ht h⟩
  intro e he hc hu hp
  exact lookup_find ht.sorted (fun x hx => ht.reg x ((ht.mem x).1 hx)) ((ht.mem e).2 he) hc
    (fun y hy h => hu y ((ht.mem y).1 hy) h) (fun y hy h hne => absurd (hp y ((ht.mem y).1 hy) h) hne)

/-- A module that is already loaded: an error that ends the command, or with `/Q` before it nothing. -/
theorem C100_again (lc : LibC) (files : List Char → Option Module) (home : List Char) (quiet : Bool) (w p x : List Char)
    (ws : List (List Char)) (st : State) (m : Module) (ho : ¬ IsOption w) (hat : At home w p) (hm : files p = some m)
    (hx : x ∈ st.loaded) (he : fold x = fold p) :
    modLoop lc files (some home) quiet (w :: ws) st =
      if quiet then modLoop lc files (some home) quiet ws st else .ok (st, 61, [.error 61 p]) := by
  rw [modLoop_word lc ho, modPath_at hat]
  simp only [hm]
  rw [if_pos]
  rw [List.any_eq_true]
  exact ⟨x, hx, by simpa using stricmp_zero.2 he.symm⟩

/-- After modules that load, a module that does not exist or cannot be loaded ends the command with its error; the modules before it stay
loaded, those after it are not. -/
theorem C100_stops (lc : LibC) (files : List Char → Option Module) (home : List Char) (ws rest : List (List Char)) (w p : List Char)
    (st : State) (T T' : List (CmdEntry Owner)) (L' : List (List Char)) (ht : Holds st.table T)
    (h : LoadsAll files home st.loaded T ws L' T') (ho : ¬ IsOption w) (hat : At home w p)
    (hbad : files p = none ∨ ∃ m, files p = some m ∧ m.opens = false ∧ ∀ x ∈ L', fold x ≠ fold p) :
    ∃ t' code, cmdMod lc files (some home) (ws ++ w :: rest) st = .ok ({ loaded := L', table := t' }, code, [.error code p]) ∧
      Holds t' T' ∧ (code = 1 ∨ code = 59) ∧ (files p = none → code = 1) := by
  obtain ⟨t', h1, h2⟩ := modLoop_loads lc (quiet := false) h (w :: rest) ht
  have hr : cmdMod lc files (some home) (ws ++ w :: rest) st =
      modLoop lc files (some home) false (w :: rest) { loaded := L', table := t' } := h2
  rcases hbad with hn | ⟨m, hm, hc, hl⟩
  · refine ⟨t', 1, ?_, h1, Or.inl rfl, fun _ => rfl⟩
    rw [hr, modLoop_word lc ho, modPath_at hat]
    simp only [hn]
  · refine ⟨t', 59, ?_, h1, Or.inr rfl, fun h => by rw [hm] at h; cases h⟩
    rw [hr, modLoop_word lc ho, modPath_at hat]
    simp only [hm]
    rw [if_neg (not_loaded hl)]
    unfold loadMod
    rw [if_pos hc]
    rfl

/-- `/?` shows the help, once the modules named before are loaded, and is no failure. -/
theorem C100_help (lc : LibC) (files : List Char → Option Module) (home : List Char) (ws rest : List (List Char))
    (st : State) (T T' : List (CmdEntry Owner)) (L' : List (List Char)) (ht : Holds st.table T)
    (h : LoadsAll files home st.loaded T ws L' T') :
    ∃ t', cmdMod lc files (some home) (ws ++ ['/', '?'] :: rest) st = .ok ({ loaded := L', table := t' }, 0, [.help]) ∧ Holds t' T' := by
  obtain ⟨t', h1, h2⟩ := modLoop_loads lc (quiet := false) h (['/', '?'] :: rest) ht
  refine ⟨t', ?_, h1⟩
  have hr : cmdMod lc files (some home) (ws ++ ['/', '?'] :: rest) st =
      modLoop lc files (some home) false (['/', '?'] :: rest) { loaded := L', table := t' } := h2
  rw [hr, modLoop, if_neg (by rw [stricmp_zero]; decide), if_pos rfl]

/-- `/L` lists the modules, the last loaded first, and changes nothing. -/
theorem C100_list (lc : LibC) (files : List Char → Option Module) (home : Option (List Char)) (w : List Char)
    (rest : List (List Char)) (st : State) (hw : fold w = ['/', 'l']) :
    cmdMod lc files home (w :: rest) st = .ok (st, 0, [.mods st.loaded]) := by
  unfold cmdMod
  rw [modLoop, if_pos (by rw [stricmp_zero, hw]; rfl)]

/-- `/Q` holds for the words after it. -/
theorem C100_quiet (lc : LibC) (files : List Char → Option Module) (home : Option (List Char)) (quiet : Bool) (w : List Char)
    (rest : List (List Char)) (st : State) (hw : fold w = ['/', 'q']) :
    modLoop lc files home quiet (w :: rest) st = modLoop lc files home true rest st := by
  rw [modLoop, if_neg (by rw [stricmp_zero, hw]; decide), if_neg (by rintro rfl; exact absurd hw (by decide)),
    if_pos (by rw [stricmp_zero, hw]; rfl)]

/-- Violation: a module that registers a command and then refuses to work is unloaded, but its command stays: it runs code that is no longer
there. -/
theorem C100_unloaded (lc : LibC) (m : Module) (path n : List Char) (st : State) (T : List (CmdEntry Owner)) (ht : Holds st.table T)
    (ho : m.opens = true) (hn : m.names = [n]) (hne : n ≠ []) (hf : Free T n) (hr : m.refuses [true] = true) (hl : path ∉ st.loaded) :
    ∃ st', loadMod lc m path st = .ok (st', 60, [.error 60 path]) ∧ path ∉ st'.loaded ∧ Holds st'.table (T ++ [owned path n]) := by
  obtain ⟨t', h1, h2⟩ := register_free (path := path) lc ht hne hf
  refine ⟨{ st with table := t' }, ?_, hl, h2⟩
  unfold loadMod
  rw [if_neg (by simp [ho]), hn, registerAll, h1]
  simp only [registerAll]
  rw [hr]
  rfl

/-- Violation: names of files are compared without regard to case. A module that differs from a loaded one by case only is never loaded. -/
theorem C100_case (lc : LibC) (files : List Char → Option Module) (home : List Char) (quiet : Bool) (p q : List Char) (st : State)
    (m : Module) (ho : ¬ IsOption p) (hat : At home p p) (hm : files p = some m) (hq : q ∈ st.loaded) (hne : p ∉ st.loaded)
    (he : fold q = fold p) :
    modLoop lc files (some home) quiet [p] st = .ok (st, if quiet then 0 else 61, if quiet then [] else [.error 61 p]) ∧
      p ∉ st.loaded := by
  refine ⟨?_, hne⟩
  rw [C100_again lc files home quiet p p q [] st m ho hat hm hq he]
  cases quiet <;> rfl

/-- Violation: the same module under another name is loaded a second time, and is listed twice; its commands are refused. -/
theorem C100_twice (lc : LibC) (files : List Char → Option Module) (home : List Char) (w n : List Char) (c : Char)
    (st : State) (T : List (CmdEntry Owner)) (m : Module) (ht : Holds st.table T) (hc : c ≠ '/')
    (hm : files (folder home ++ '/' :: c :: w) = some m) (hm' : files (folder home ++ '/' :: '.' :: '/' :: c :: w) = some m)
    (hnames : m.names = [n]) (hne : n ≠ []) (hopen : m.opens = true) (hacc : ∀ b, m.refuses [b] = false) (hfree : Free T n)
    (hreg : ∀ e ∈ T, ¬ codes n <+: codes e.name)
    (hl : ∀ x ∈ st.loaded, fold x ≠ fold (folder home ++ '/' :: c :: w) ∧ fold x ≠ fold (folder home ++ '/' :: '.' :: '/' :: c :: w)) :
    ∃ t', cmdMod lc files (some home) [c :: w, '.' :: '/' :: c :: w] st =
        .ok ({ loaded := (folder home ++ '/' :: '.' :: '/' :: c :: w) :: (folder home ++ '/' :: c :: w) :: st.loaded, table := t' }, 0,
          [.error 37 n]) ∧ Holds t' (T ++ [owned (folder home ++ '/' :: c :: w) n]) := by
  have hopt : ∀ x : List Char, x.head? ≠ some '/' → ¬ IsOption x := by
    rintro x hx (h | h | h)
    all_goals cases x with
      | nil => first | exact absurd h (by decide) | exact absurd h (by simp)
      | cons d x => ?_
    · simp only [fold, List.map_cons, List.cons.injEq] at h
      exact hx (by rw [toLower_slash h.1]; rfl)
    · simp only [fold, List.map_cons, List.cons.injEq] at h
      exact hx (by rw [toLower_slash h.1]; rfl)
    · cases h; exact hx rfl
  generalize hp : folder home ++ '/' :: c :: w = p at *
  generalize hp' : folder home ++ '/' :: '.' :: '/' :: c :: w = p' at *
  have hat : At home (c :: w) p := hp ▸ .name hc
  have hat' : At home ('.' :: '/' :: c :: w) p' := hp' ▸ .name (by decide)
  have hpp : fold p ≠ fold p' := by
    intro h
    have := congrArg List.length h
    simp only [fold, List.length_map, ← hp, ← hp', List.length_append, List.length_cons] at this
    omega
  obtain ⟨t1, hr1, ht1⟩ := register_free (path := p) lc ht hne hfree
  have hlook : t1.lookup n = .ok (some (owned p n)) := by
    refine (C100_call t1 _ ht1 n).1 (owned p n) (by simp) ?_ ?_ ?_
    · exact ⟨n, [], by simp, rfl, Or.inr (by intro c hc; simp at hc)⟩
    · intro y hy hcl
      rcases List.mem_append.1 hy with hy | hy
      · exact absurd hcl (hfree y hy)
      · exact List.mem_singleton.1 hy
    · intro y hy hpre
      rcases List.mem_append.1 hy with hy | hy
      · exact absurd hpre (hreg y hy)
      · exact List.mem_singleton.1 hy
  refine ⟨t1, ?_, ht1⟩
  unfold cmdMod
  rw [modLoop_word lc (hopt _ (by simpa using hc)), modPath_at hat]
  simp only [hm]
  rw [if_neg (not_loaded (fun x hx => (hl x hx).1))]
  have hload : loadMod lc m p st = .ok ({ loaded := p :: st.loaded, table := t1 }, 0, []) := by
    unfold loadMod
    rw [if_neg (by simp [hopen]), hnames, registerAll, hr1]
    simp only [registerAll, hacc]
    rfl
  rw [hload]
  simp only
  rw [if_neg (by simp), modLoop_word lc (hopt _ (by simp)), modPath_at hat']
  simp only [hm']
  rw [if_neg (not_loaded (by
    intro x hx
    rcases List.mem_cons.1 hx with rfl | hx
    · exact hpp
    · exact (hl x hx).2))]
  have hload2 : loadMod lc m p' { loaded := p :: st.loaded, table := t1 } =
      .ok ({ loaded := p' :: p :: st.loaded, table := t1 }, 0, [.error 37 n]) := by
    unfold loadMod
    rw [if_neg (by simp [hopen]), hnames, registerAll]
    unfold register
    simp only [hlook, registerAll, hacc]
    rfl
  rw [hload2]
  rfl

/-- Violation: without `%PBAT_PATH%`, a module that is not given from the root is looked for at a null pointer. -/
theorem C100_no_home (lc : LibC) (files : List Char → Option Module) (w : List Char) (rest : List (List Char)) (c : Char) (st : State)
    (hc : c ≠ '/') : cmdMod lc files none ((c :: w) :: rest) st = .ub := by
  have hopt : ¬ IsOption (c :: w) := by
    rintro (h | h | h)
    · simp only [fold, List.map_cons, List.cons.injEq] at h
      exact hc (toLower_slash h.1)
    · simp only [fold, List.map_cons, List.cons.injEq] at h
      exact hc (toLower_slash h.1)
    · cases h; exact hc rfl
  unfold cmdMod
  rw [modLoop_word lc hopt]
  unfold modPath rooted
  rw [if_neg (by simp [hc])]

/-! Examples: four commands, and the module `/m/modules/a.so` with the command `hi`. -/

def exT : List (CmdEntry Owner) := [⟨['c', 'd'], 2, .program "cd"⟩, ⟨['m', 'd'], 2, .program "md"⟩, ⟨['r', 'd'], 2, .program "rd"⟩,
  ⟨['i', 'f'], 2, .program "if"⟩]

def exMod : Module := { opens := true, names := [['h', 'i']], refuses := fun b => b = [] }

def exFiles (p : List Char) : Option Module := if p = "/m/modules/a.so".toList ∨ p = "/m/modules/./a.so".toList then some exMod else none

theorem exHolds (lc : LibC) : Holds (mapInfo lc exT) exT where
  sorted := mapInfo_sorted lc exT
  distinct := by unfold Distinct; decide +kernel
  mem := fun e => mapInfo_mem lc exT (by decide +kernel) (by decide) e
  reg := by unfold Registered; decide +kernel
  size := by decide

theorem exFree {T : List (CmdEntry Owner)} {c d : Char} (h : ∀ e ∈ T, ∃ a b, e.name = [a, b] ∧ fold [a] ≠ fold [c]) :
    Free T [c, d] := by
  rintro e he ⟨w, r, h1, h2, _⟩
  obtain ⟨a, b, h3, h4⟩ := h e he
  rw [h3] at h2
  cases w with
  | nil => cases h2
  | cons x w =>
    simp only [List.cons_append, List.cons.injEq] at h1
    simp only [fold, List.map_cons, List.cons.injEq] at h2
    apply h4
    simp only [fold, List.map_cons, List.map_nil, List.cons.injEq, and_true]
    rw [h1.1, h2.1]

theorem exFits (p : List Char) : Fits exT exMod p := by
  refine ⟨rfl, rfl, ?_⟩
  intro a n b h
  cases a with
  | nil =>
    cases h
    refine ⟨by decide, ?_⟩
    rw [List.map_nil, List.append_nil]
    refine exFree ?_
    intro e he
    simp only [exT, List.mem_cons, List.not_mem_nil, or_false] at he
    rcases he with rfl | rfl | rfl | rfl <;> exact ⟨_, _, rfl, by decide⟩
  | cons x a =>
    simp only [exMod, List.cons_append, List.cons.injEq, List.nil_eq, List.append_eq_nil_iff, List.cons_ne_nil, and_false] at h

theorem exLoads : LoadsAll exFiles ['/', 'm'] [] exT [['a', '.', 's', 'o']] ["/m/modules/a.so".toList]
    (exT ++ [owned "/m/modules/a.so".toList ['h', 'i']]) :=
  .cons (m := exMod) (by unfold IsOption; decide) (.name (by decide)) rfl (by simp) (exFits _) .nil

/-- `mod a.so`, then the command is found. -/
example (lc : LibC) : ∃ t', cmdMod lc exFiles (some ['/', 'm']) [['a', '.', 's', 'o']] ⟨[], mapInfo lc exT⟩ =
      .ok (⟨["/m/modules/a.so".toList], t'⟩, 0, []) ∧ Holds t' (exT ++ [owned "/m/modules/a.so".toList ['h', 'i']]) :=
  C100_load_partial lc _ _ _ _ _ _ _ (exHolds lc) exLoads

/-- `mod a.so none.so b.so`: only the first. -/
example (lc : LibC) : ∃ t' code, cmdMod lc exFiles (some ['/', 'm']) ([['a', '.', 's', 'o']] ++ ['n'] :: [['b']]) ⟨[], mapInfo lc exT⟩ =
      .ok (⟨["/m/modules/a.so".toList], t'⟩, code, [.error code "/m/modules/n".toList]) ∧
      Holds t' (exT ++ [owned "/m/modules/a.so".toList ['h', 'i']]) ∧ (code = 1 ∨ code = 59) ∧
      (exFiles "/m/modules/n".toList = none → code = 1) :=
  C100_stops lc exFiles ['/', 'm'] _ _ ['n'] _ ⟨[], mapInfo lc exT⟩ _ _ _ (exHolds lc) exLoads (by unfold IsOption; decide)
    (.name (by decide)) (Or.inl rfl)

/-- A module that registers `hi` and then gives up. -/
example (lc : LibC) : ∃ st', loadMod lc { exMod with refuses := fun _ => true } ['/', 'x'] ⟨[], mapInfo lc exT⟩ =
      .ok (st', 60, [.error 60 ['/', 'x']]) ∧ ['/', 'x'] ∉ st'.loaded ∧ Holds st'.table (exT ++ [owned ['/', 'x'] ['h', 'i']]) :=
  C100_unloaded lc _ _ ['h', 'i'] _ _ (exHolds lc) rfl rfl (by decide)
    (by simpa using ((exFits []).2.2 [] ['h', 'i'] [] rfl).2) rfl (by simp)

/-- `mod a.so ./a.so` loads the module twice. -/
example (lc : LibC) : ∃ t', cmdMod lc exFiles (some ['/', 'm']) [['a', '.', 's', 'o'], ['.', '/', 'a', '.', 's', 'o']] ⟨[], mapInfo lc exT⟩ =
      .ok (⟨["/m/modules/./a.so".toList, "/m/modules/a.so".toList], t'⟩, 0, [.error 37 ['h', 'i']]) ∧
      Holds t' (exT ++ [owned "/m/modules/a.so".toList ['h', 'i']]) :=
  C100_twice lc exFiles ['/', 'm'] ['.', 's', 'o'] ['h', 'i'] 'a' ⟨[], mapInfo lc exT⟩ exT exMod (exHolds lc) (by decide) rfl rfl rfl
    (by decide) rfl (by decide) (by simpa using ((exFits []).2.2 [] ['h', 'i'] [] rfl).2) (by decide +kernel) (by simp)

end PBat.Mods
