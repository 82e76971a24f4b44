import Verif.Lemmas.Call
import Verif.Lemmas.Expand
/-
C63: CALL.
-/
namespace PBat
open Spec

/-- How a call ends for the caller: whatever the called script does, the caller goes on where it was, with its own script, arguments,
loop variables and streams; the error level is the one the called script leaves. -/
def backTo {W : Type} (f : CallState) (r : CallState × W) : Res (Int × CallState × W) :=
  .ok (r.1.level, { f with abort := .no, level := r.1.level }, r.2)

theorem jump_own (d : CallDisk) (f : CallState) (label : List Char) (t : FileText) (pos : Nat) (b : List (List Char))
    (hn : f.name ≠ []) (hl : f.loaded = f.name) (hr : d.read f.name = some t)
    (hs : f.script = { loadScript t.texts t.size with curr := pos }) (hb : LabelledAt t.texts label b) :
    ∃ sc, jumpFrame d f label none = .ok (some { f with script := sc }) ∧ sc.cmds.drop sc.curr = commands b := by
  obtain ⟨a, l, h1, h2, h3, h4⟩ := hb
  obtain ⟨sc, e1, e2, -⟩ := C19_jump_partial t.texts t.size pos label a b l h1 h2 h3 h4
  refine ⟨sc, ?_, e2⟩
  simp only [jumpFrame]
  rw [if_neg hn, updateFrame_same d f t hn hl hr (by rw [hs]; rfl)]
  simp only
  rw [hs, e1]
  rfl

/-- `CALL :label arguments`: the commands after the label of the running script are run with exactly these arguments, `%0` being the label,
and then the caller goes on.  For every called text (`run`) and every way of writing the arguments.
Missing: the label is not in the script (`C63_label_missing`); the first argument is `/?` (`C63_help`); the script has been changed on the
disk (C20); arguments after the ninth as in `C28_call_partial`. -/
theorem C63_label_partial {q : Char → Bool} (hq : q '"' = true) (hc : q '^' = true) (hp : q '%' = true) (he : q '!' = true)
    {W : Type} (d : CallDisk) (c : Ctx) (rv : List Char → Res (List Char)) (cmdly : Bool) (run : CallState → W → Res (CallState × W))
    (runLine : List Char → CallState → W → Res (CallState × W)) (line label tail all : List Char) (as : List (List Char)) (f : CallState) (w : W)
    (h : ParamPrefix q line [label] tail) (ha : ParamLine q tail as) (hlab : label.head? = some ':')
    (hh : ∀ a, as.head? = some a → fold a ≠ "/?".toList) (hall : c.ex tail = .ok all) (hpass : ∀ a ∈ as.drop 9, Passable a)
    (t : FileText) (pos : Nat) (b : List (List Char)) (hn : f.name ≠ []) (hl : f.loaded = f.name) (hr : d.read f.name = some t)
    (hs : f.script = { loadScript t.texts t.size with curr := pos }) (hb : LabelledAt t.texts label b) :
    ∃ g, Begun f g label as all ∧ g.name = f.name ∧ g.eof = f.eof ∧ g.script.cmds.drop g.script.curr = commands b ∧
      cmdCall d c.ex rv cmdly run runLine line f w = (run g w).bind (backTo f) := by
  obtain ⟨sc, e1, e2⟩ := jump_own d f label t pos b hn hl hr hs hb
  have hne : label ≠ [] := by rintro rfl; simp at hlab
  have h1 : fold label ≠ "/e".toList := by
    cases label with
    | nil => simp at hlab
    | cons x r => cases hlab; intro h; exact absurd (List.cons.inj h).1 (by decide)
  have h2 : fold label ≠ "/?".toList := by
    cases label with
    | nil => simp at hlab
    | cons x r => cases hlab; intro h; exact absurd (List.cons.inj h).1 (by decide)
  have hscan := callScan_one hq hc hp he c cmdly h ha h1 h2 hh
  obtain ⟨g, g1, g2, g3, g4, g5, g6⟩ := callFile_enter d c run (file := none) (label := some label) (path := none) (zero := label)
    (f := f) (g := { f with script := sc }) w rfl (by simp only [callInput]; rw [e1]; rfl) rfl
    (kept_line hq hc hp he ha) hall hpass
  refine ⟨g, g1, g2, g5, by rw [g4]; exact e2, ?_⟩
  unfold cmdCall
  rw [hscan]
  simp only [Res.ok_bind, callTake, hlab, if_true, hne, and_false, if_false, ne_eq, not_false_eq_true]
  exact g6

/-- `CALL file arguments` for a file found as the script `path`, other than the one that is running: its commands are run from the first one,
with exactly these arguments, `%0` being the path; then the caller goes on.
Missing: the running script calls itself (`C63_self`), the first argument is `/?`, names with a caret or too long. -/
theorem C63_script_partial {q : Char → Bool} (hq : q '"' = true) (hc : q '^' = true) (hp : q '%' = true) (he : q '!' = true)
    {W : Type} (d : CallDisk) (c : Ctx) (rv : List Char → Res (List Char)) (cmdly : Bool) (run : CallState → W → Res (CallState × W))
    (runLine : List Char → CallState → W → Res (CallState × W)) (line file path tail all : List Char) (as : List (List Char)) (f : CallState)
    (w : W) (h : ParamPrefix q line [file] tail) (ha : ParamLine q tail as) (hfile : file ≠ [] ∧ file.head? ≠ some ':')
    (h1 : fold file ≠ "/e".toList) (h2 : fold file ≠ "/?".toList)
    (hh : ∀ a, as.head? = some a → fold a ≠ "/?".toList) (hall : c.ex tail = .ok all) (hpass : ∀ a ∈ as.drop 9, Passable a)
    (hfind : d.find file = some path) (hfull : d.full path = some path) (hsp : ScriptPath path)
    (hlen : path.length < 4096) (hd : ¬ HasDrive path) (hcar : '^' ∉ path)
    (t : FileText) (hr : d.read path = some t) (hne : f.loaded ≠ path) :
    ∃ g g', Begun f g path as all ∧ g.name = path ∧ g.eof = false ∧
      updateFrame d g = some g' ∧ g'.script.cmds.drop g'.script.curr = commands (effective t.texts) ∧
      g'.name = g.name ∧ g'.args = g.args ∧ g'.loops = g.loops ∧
      cmdCall d c.ex rv cmdly run runLine line f w = (run g w).bind (backTo f) := by
  have hpne : path ≠ [] := by
    obtain ⟨b, e, rfl, he⟩ := hsp
    obtain ⟨s, rfl, -⟩ := script_ext he
    simp
  have hscan := callScan_one hq hc hp he c cmdly h ha h1 h2 hh
  obtain ⟨g, g1, g2, g3, g4, g5, g6⟩ := callFile_enter d c run (file := some path) (label := none) (path := some path) (zero := path)
    (f := f) (g := { f with eof := false, name := path }) w (by simp [hfull]) rfl rfl
    (kept_line hq hc hp he ha) hall hpass
  refine ⟨g, { g with loaded := path, script := loadScript t.texts t.size }, g1, g2, g5, ?_, ?_, rfl, rfl, rfl, ?_⟩
  · have := updateFrame_new d g t (by rw [g2]; exact hpne) (by rw [g2, g3]; exact hne) (by rw [g2]; exact hr)
    rw [this, g2]
  · simp only [loadScript_cmds]
    simp [loadScript]
  · obtain ⟨b, i1, i2⟩ := isScript_iff path hlen hd hcar
    unfold cmdCall
    rw [hscan]
    simp only [Res.ok_bind, callTake]
    rw [if_neg hfile.2]
    simp only [if_true, hfile.1, false_and, if_false, ne_eq, not_true, hfind]
    unfold callFound
    rw [i1, i2.2 hsp]
    exact g6

/-- `CALL /e file :label arguments`, in either order: the commands after the label in the file are run with exactly these arguments, then the
caller goes on.  Missing: the file is, up to case, the running script (`C63_other_case`); the first argument is `/?`. -/
theorem C63_file_label_partial {q : Char → Bool} (hq : q '"' = true) (hc : q '^' = true) (hp : q '%' = true) (he : q '!' = true)
    {W : Type} (d : CallDisk) (c : Ctx) (rv : List Char → Res (List Char)) (run : CallState → W → Res (CallState × W))
    (runLine : List Char → CallState → W → Res (CallState × W)) (line e x y file label path tail all : List Char) (as : List (List Char))
    (f : CallState) (w : W) (h : ParamPrefix q line [e, x, y] tail) (ha : ParamLine q tail as) (hsw : fold e = "/e".toList)
    (hxy : (x = file ∧ y = label) ∨ (x = label ∧ y = file)) (hlab : label.head? = some ':')
    (hfile : file ≠ [] ∧ file.head? ≠ some ':') (h1 : fold file ≠ "/e".toList) (h2 : fold file ≠ "/?".toList)
    (hh : ∀ a, as.head? = some a → fold a ≠ "/?".toList) (hall : c.ex tail = .ok all) (hpass : ∀ a ∈ as.drop 9, Passable a)
    (hfull : d.full file = some path) (t : FileText) (hr : d.read path = some t) (hne : fold f.loaded ≠ fold path)
    (b : List (List Char)) (hb : LabelledAt t.texts label b) :
    ∃ g, Begun f g label as all ∧ g.name = path ∧ g.loaded = path ∧ g.eof = f.eof ∧
      g.script.cmds.drop g.script.curr = commands b ∧
      cmdCall d c.ex rv false run runLine line f w = (run g w).bind (backTo f) := by
  have hlne : label ≠ [] := by rintro rfl; simp at hlab
  have hl1 : fold label ≠ "/e".toList ∧ fold label ≠ "/?".toList := by
    cases label with
    | nil => simp at hlab
    | cons x r => cases hlab; constructor <;> (intro h; exact absurd (List.cons.inj h).1 (by decide))
  obtain ⟨a, l, b1, b2, b3, b4⟩ := hb
  obtain ⟨sc, j1, j2⟩ := C19_other_file t.texts t.size label a b l b1 b2 b3 b4
  have hjump : jumpFrame d f label (some path) = .ok (some { f with name := path, loaded := path, script := sc }) := by
    simp only [jumpFrame]
    rw [if_pos (fun h => hne (stricmp_zero.1 h)), hr]
    simp only [Option.bind_some, j1, Option.map_some]
  obtain ⟨g, g1, g2, g3, g4, g5, g6⟩ := callFile_enter d c run (file := some file) (label := some label) (path := some path)
    (zero := label) (f := f) (g := { f with name := path, loaded := path, script := sc }) w (by simp [hfull])
    (by simp only [callInput]; rw [hjump]; rfl) rfl (kept_line hq hc hp he ha) hall hpass
  refine ⟨g, g1, g2, g3, g5, by rw [g4]; exact j2, ?_⟩
  have hlh : ¬ (file.head? = some ':') := hfile.2
  have hscan : callScan c.ex false {} (skipBlanks line) = .ok (.done ⟨2, true, label, file⟩ tail) := by
    rcases hxy with ⟨rfl, rfl⟩ | ⟨rfl, rfl⟩
    · rw [callScan_two hq hc hp he c h ha hsw h1 h2 hl1.2 hh]
      simp [callTake, hlab, hlh]
    · rw [callScan_two hq hc hp he c h ha hsw hl1.1 hl1.2 h2 hh]
      simp [callTake, hlab, hlh]
  unfold cmdCall
  rw [hscan]
  simp only [Res.ok_bind, hfile.1, hlne, false_and, if_false, ne_eq, not_false_eq_true, if_true]
  exact g6

theorem callFile_place {W : Type} (d : CallDisk) (ex : List Char → Res (List Char)) (run : CallState → W → Res (CallState × W))
    (file label : Option (List Char)) (line : List Char) (f f' : CallState) (w w' : W) (code : Int)
    (h : callFile d ex run file label line f w = .ok (code, f', w')) : SamePlace f f' := by
  unfold callFile at h
  split at h
  · cases h; exact ⟨rfl, rfl, rfl, rfl, rfl, rfl, rfl⟩
  · obtain ⟨r, -, h⟩ := res_bind_eq_ok.1 h
    split at h
    · cases h; exact ⟨rfl, rfl, rfl, rfl, rfl, rfl, rfl⟩
    · obtain ⟨a, -, h⟩ := res_bind_eq_ok.1 h
      obtain ⟨r, -, h⟩ := res_bind_eq_ok.1 h
      cases h; exact ⟨rfl, rfl, rfl, rfl, rfl, rfl, rfl⟩

/-- After any CALL, whatever was written after it and whatever the called text does, the caller is where it was: same script and place in
it, same arguments, loop variables and stream lock (provided that running a program leaves them alone). -/
theorem C63_returns {W : Type} (d : CallDisk) (ex rv : List Char → Res (List Char)) (cmdly : Bool) (run : CallState → W → Res (CallState × W))
    (runLine : List Char → CallState → W → Res (CallState × W)) (line : List Char) (f f' : CallState) (w w' : W) (code : Int)
    (hrun : ∀ t f w r, runLine t f w = .ok r → SamePlace f r.1)
    (h : cmdCall d ex rv cmdly run runLine line f w = .ok (code, f', w')) : SamePlace f f' := by
  unfold cmdCall at h
  obtain ⟨s, -, h⟩ := res_bind_eq_ok.1 h
  have triv : SamePlace f f := ⟨rfl, rfl, rfl, rfl, rfl, rfl, rfl⟩
  split at h
  · cases h; exact triv
  · cases h; exact triv
  · split at h
    · cases h; exact triv
    · split at h
      · exact callFile_place d ex run _ _ _ f f' w w' code h
      · split at h
        · cases h; exact triv
        · unfold callFound at h
          obtain ⟨b, -, h⟩ := res_bind_eq_ok.1 h
          split at h
          · exact callFile_place d ex run _ _ _ f f' w w' code h
          · obtain ⟨t, -, h⟩ := res_bind_eq_ok.1 h
            unfold callProgram at h
            obtain ⟨t', -, h⟩ := res_bind_eq_ok.1 h
            obtain ⟨r, hr, h⟩ := res_bind_eq_ok.1 h
            have := hrun _ _ _ _ hr
            cases h
            exact this

/-- Without file or label CALL is an error and does nothing. -/
theorem C63_nothing {W : Type} (d : CallDisk) (ex rv : List Char → Res (List Char)) (cmdly : Bool) (run : CallState → W → Res (CallState × W))
    (runLine : List Char → CallState → W → Res (CallState × W)) (line : List Char) (f : CallState) (w : W) (h : ∀ c ∈ line, Blank c) :
    cmdCall d ex rv cmdly run runLine line f w = .ok (8, f, w) := by
  have hs : skipBlanks line = [] := by
    have := skipBlanks_append (s := []) h
    rw [List.append_nil] at this
    rw [this]; rfl
  unfold cmdCall
  rw [hs, callScan.eq_1, nextParam_nil _ _ _ rfl]
  rfl

/-- A file that cannot be found is an error and does nothing. -/
theorem C63_not_found {q : Char → Bool} (hq : q '"' = true) (hc : q '^' = true) (hp : q '%' = true) (he : q '!' = true)
    {W : Type} (d : CallDisk) (c : Ctx) (rv : List Char → Res (List Char)) (cmdly : Bool) (run : CallState → W → Res (CallState × W))
    (runLine : List Char → CallState → W → Res (CallState × W)) (line file tail : List Char) (as : List (List Char)) (f : CallState)
    (w : W) (h : ParamPrefix q line [file] tail) (ha : ParamLine q tail as) (hfile : file ≠ [] ∧ file.head? ≠ some ':')
    (h1 : fold file ≠ "/e".toList) (h2 : fold file ≠ "/?".toList)
    (hh : ∀ a, as.head? = some a → fold a ≠ "/?".toList) (hfind : d.find file = none) :
    cmdCall d c.ex rv cmdly run runLine line f w = .ok (3, f, w) := by
  unfold cmdCall
  rw [callScan_one hq hc hp he c cmdly h ha h1 h2 hh]
  simp only [Res.ok_bind, callTake]
  rw [if_neg hfile.2]
  simp only [if_true, hfile.1, false_and, if_false, ne_eq, not_true, hfind]

/-- A label that is not in the other file named, or a file that does not exist, is an error and does nothing. -/
theorem C63_file_label_missing {q : Char → Bool} (hq : q '"' = true) (hc : q '^' = true) (hp : q '%' = true) (he : q '!' = true)
    {W : Type} (d : CallDisk) (c : Ctx) (rv : List Char → Res (List Char)) (run : CallState → W → Res (CallState × W))
    (runLine : List Char → CallState → W → Res (CallState × W)) (line e file label tail : List Char) (as : List (List Char))
    (f : CallState) (w : W) (h : ParamPrefix q line [e, file, label] tail) (ha : ParamLine q tail as) (hsw : fold e = "/e".toList)
    (hlab : label.head? = some ':') (hfile : file ≠ [] ∧ file.head? ≠ some ':') (h1 : fold file ≠ "/e".toList)
    (h2 : fold file ≠ "/?".toList) (hh : ∀ a, as.head? = some a → fold a ≠ "/?".toList) :
    (d.full file = none → cmdCall d c.ex rv false run runLine line f w = .ok (1, f, w)) ∧
    (∀ path t, d.full file = some path → d.read path = some t → fold f.loaded ≠ fold path →
      (∀ x ∈ effective t.texts, isLabel x = true → ¬ LabelMatches (labelName x) label) →
      cmdCall d c.ex rv false run runLine line f w = .ok (6, f, w)) := by
  have hlne : label ≠ [] := by rintro rfl; simp at hlab
  have hl2 : fold label ≠ "/?".toList := by
    cases label with
    | nil => simp at hlab
    | cons x r => cases hlab; intro h; exact absurd (List.cons.inj h).1 (by decide)
  have hlh : ¬ (file.head? = some ':') := hfile.2
  have hscan : callScan c.ex false {} (skipBlanks line) = .ok (.done ⟨2, true, label, file⟩ tail) := by
    rw [callScan_two hq hc hp he c h ha hsw h1 h2 hl2 hh]
    simp [callTake, hlab, hlh]
  unfold cmdCall
  rw [hscan]
  simp only [Res.ok_bind, hfile.1, hlne, false_and, if_false, ne_eq, not_false_eq_true, if_true]
  constructor
  · intro hn
    unfold callFile
    rw [Option.map_some, hn]
  · intro path t hfull hr hne hx
    unfold callFile
    rw [Option.map_some, hfull]
    simp only [callInput, Option.join, jumpFrame, Option.bind_some, id_eq]
    rw [if_pos (fun h => hne (stricmp_zero.1 h)), hr]
    simp only [Option.bind_some, C19_other_file_missing t.texts t.size label hx]
    rfl

/-- With `CMDLYCORRECT`, the switch is an error and nothing is called. -/
theorem C63_disabled {q : Char → Bool} (hq : q '"' = true) (hc : q '^' = true) (hp : q '%' = true) (he : q '!' = true)
    {W : Type} (d : CallDisk) (c : Ctx) (rv : List Char → Res (List Char)) (run : CallState → W → Res (CallState × W))
    (runLine : List Char → CallState → W → Res (CallState × W)) (line e tail : List Char) (as : List (List Char)) (f : CallState)
    (w : W) (h : ParamPrefix q line (e :: as) tail) (hsw : fold e = "/e".toList) :
    cmdCall d c.ex rv true run runLine line f w = .ok (7, f, w) := by
  obtain ⟨t, e1, -⟩ := prefix_next hq hc hp he c (prefix_skip h)
  unfold cmdCall
  rw [callScan.eq_1, e1]
  simp only
  rw [if_pos ⟨stricmp_zero.2 (by rw [hsw]; rfl), trivial⟩]
  rfl

/-- A program is run by a line made of its path and the rest of the line; texts without carets, percent and exclamation marks are passed as
they are.  Missing: paths with blanks (`C63_program_blank`), characters that the second expansion and the parser treat specially. -/
theorem C63_program_partial {q : Char → Bool} (hq : q '"' = true) (hc : q '^' = true) (hp : q '%' = true) (he : q '!' = true)
    {W : Type} (d : CallDisk) (c : Ctx) (rv : List Char → Res (List Char)) (cmdly : Bool) (run : CallState → W → Res (CallState × W))
    (runLine : List Char → CallState → W → Res (CallState × W)) (line file path tail : List Char) (as : List (List Char)) (f : CallState)
    (w : W) (h : ParamPrefix q line [file] tail) (ha : ParamLine q tail as) (hfile : file ≠ [] ∧ file.head? ≠ some ':')
    (h1 : fold file ≠ "/e".toList) (h2 : fold file ≠ "/?".toList)
    (hh : ∀ a, as.head? = some a → fold a ≠ "/?".toList)
    (hfind : d.find file = some path) (hsp : ¬ ScriptPath path) (hlen : path.length < 4096) (hd : ¬ HasDrive path)
    (hplain : ∀ x ∈ path ++ tail, x ≠ '^' ∧ x ≠ '%' ∧ x ≠ '!')
    (hrv : ∀ s, (∀ x ∈ s, x ≠ '^' ∧ x ≠ '%' ∧ x ≠ '!') → rv s = .ok s) :
    cmdCall d c.ex rv cmdly run runLine line f w =
      (runLine (path ++ ' ' :: tail) f w).bind fun r => .ok (r.1.level, r) := by
  have hcar : '^' ∉ path := fun h => (hplain '^' (by simp [h])).1 rfl
  obtain ⟨b, i1, i2⟩ := isScript_iff path hlen hd hcar
  have hb : b = false := by
    cases b with
    | true => exact absurd (i2.1 rfl) hsp
    | false => rfl
  have hex : c.ex tail = .ok tail := by
    have := delayedExpand_escape c.delayed c.loops c.mods c.getv (q := fun c => c == '^' || c == '%' || c == '!') rfl rfl rfl tail
    rw [escape_none] at this
    · exact this
    · intro x hx
      have := hplain x (by simp [hx])
      simp [this]
  unfold cmdCall
  rw [callScan_one hq hc hp he c cmdly h ha h1 h2 hh]
  simp only [Res.ok_bind, callTake]
  rw [if_neg hfile.2]
  simp only [if_true, hfile.1, false_and, if_false, ne_eq, not_true, hfind]
  unfold callFound
  rw [i1, hb]
  simp only [Res.ok_bind]
  rw [if_neg (by simp), hex]
  simp only [Res.ok_bind]
  unfold callProgram
  rw [hrv]
  · rfl
  · intro x hx
    rcases List.mem_append.1 hx with hx | hx
    · exact hplain x (by simp [hx])
    · rcases List.mem_cons.1 hx with rfl | hx
      · decide
      · exact hplain x (by simp [hx])

/-! ### What fails -/

/-- Violation: when the first argument is `/?`, nothing is called at all, whatever the label, the script or the program. -/
theorem C63_help {q : Char → Bool} (hq : q '"' = true) (hc : q '^' = true) (hp : q '%' = true) (he : q '!' = true)
    {W : Type} (d : CallDisk) (c : Ctx) (rv : List Char → Res (List Char)) (cmdly : Bool) (run : CallState → W → Res (CallState × W))
    (runLine : List Char → CallState → W → Res (CallState × W)) (line x a tail : List Char) (as : List (List Char)) (f : CallState) (w : W)
    (h : ParamPrefix q line (x :: a :: as) tail) (h1 : fold x ≠ "/e".toList) (h2 : fold x ≠ "/?".toList)
    (ha : fold a = "/?".toList) :
    cmdCall d c.ex rv cmdly run runLine line f w = .ok (f.level, f, w) := by
  obtain ⟨t, e1, e2, e3⟩ := prefix_next hq hc hp he c (prefix_skip h)
  rcases e3 with ⟨e, -⟩ | e3
  · simp at e
  obtain ⟨u, f1, -⟩ := prefix_next hq hc hp he c e3
  unfold cmdCall
  rw [callScan_take c cmdly {} e1 e2 (fun _ => h1) h2 (.inl rfl), callScan.eq_1, f1]
  have hn : (callTake {} x).nb ≠ 0 := by unfold callTake; split <;> simp
  simp only
  rw [if_neg (fun h => hn h.2), if_pos (stricmp_zero.2 (by rw [ha]; rfl))]
  rfl

/-- Violation: with `/e` and no label the first argument is lost, for every script: it gets only the following ones. -/
theorem C63_first_lost {q : Char → Bool} (hq : q '"' = true) (hc : q '^' = true) (hp : q '%' = true) (he : q '!' = true)
    {W : Type} (d : CallDisk) (c : Ctx) (rv : List Char → Res (List Char)) (run : CallState → W → Res (CallState × W))
    (runLine : List Char → CallState → W → Res (CallState × W)) (line e file first path tail all : List Char) (as : List (List Char)) (f : CallState)
    (w : W) (h : ParamPrefix q line [e, file, first] tail) (ha : ParamLine q tail as) (hsw : fold e = "/e".toList)
    (hfile : file ≠ [] ∧ file.head? ≠ some ':') (h1 : fold file ≠ "/e".toList) (h2 : fold file ≠ "/?".toList)
    (hfirst : first.head? ≠ some ':' ∧ fold first ≠ "/?".toList)
    (hh : ∀ a, as.head? = some a → fold a ≠ "/?".toList) (hall : c.ex tail = .ok all) (hpass : ∀ a ∈ as.drop 9, Passable a)
    (hfind : d.find file = some path) (hfull : d.full path = some path) (hsp : ScriptPath path)
    (hlen : path.length < 4096) (hd : ¬ HasDrive path) (hcar : '^' ∉ path) :
    ∃ g, Begun f g path as all ∧ cmdCall d c.ex rv false run runLine line f w = (run g w).bind (backTo f) := by
  obtain ⟨g, g1, g2, g3, g4, g5, g6⟩ := callFile_enter d c run (file := some path) (label := none) (path := some path) (zero := path)
    (f := f) (g := { f with eof := false, name := path }) w (by simp [hfull]) rfl rfl
    (kept_line hq hc hp he ha) hall hpass
  refine ⟨g, g1, ?_⟩
  obtain ⟨b, i1, i2⟩ := isScript_iff path hlen hd hcar
  have hscan : callScan c.ex false {} (skipBlanks line) = .ok (.done ⟨2, true, [], file⟩ tail) := by
    rw [callScan_two hq hc hp he c h ha hsw h1 h2 hfirst.2 hh]
    simp [callTake, hfile, hfirst.1]
  unfold cmdCall
  rw [hscan]
  simp only [Res.ok_bind, hfile.1, false_and, if_false, ne_eq, not_true, hfind]
  unfold callFound
  rw [i1, i2.2 hsp]
  exact g6

/-- Violation: a script that calls itself does not start again: it goes on after the CALL, with the new arguments.  For every script (unchanged
on the disk) and every place in it. -/
theorem C63_self {q : Char → Bool} (hq : q '"' = true) (hc : q '^' = true) (hp : q '%' = true) (he : q '!' = true)
    {W : Type} (d : CallDisk) (c : Ctx) (rv : List Char → Res (List Char)) (cmdly : Bool) (run : CallState → W → Res (CallState × W))
    (runLine : List Char → CallState → W → Res (CallState × W)) (line file path tail all : List Char) (as : List (List Char)) (f : CallState)
    (w : W) (h : ParamPrefix q line [file] tail) (ha : ParamLine q tail as) (hfile : file ≠ [] ∧ file.head? ≠ some ':')
    (h1 : fold file ≠ "/e".toList) (h2 : fold file ≠ "/?".toList)
    (hh : ∀ a, as.head? = some a → fold a ≠ "/?".toList) (hall : c.ex tail = .ok all) (hpass : ∀ a ∈ as.drop 9, Passable a)
    (hfind : d.find file = some path) (hfull : d.full path = some path) (hsp : ScriptPath path)
    (hlen : path.length < 4096) (hd : ¬ HasDrive path) (hcar : '^' ∉ path)
    (t : FileText) (hr : d.read path = some t) (hl : f.loaded = path) (hs : f.script.size = t.size) :
    ∃ g, Begun f g path as all ∧ g.name = path ∧ updateFrame d g = some g ∧ g.script = f.script ∧
      cmdCall d c.ex rv cmdly run runLine line f w = (run g w).bind (backTo f) := by
  have hpne : path ≠ [] := by
    obtain ⟨b, e, rfl, he⟩ := hsp
    obtain ⟨s, rfl, -⟩ := script_ext he
    simp
  obtain ⟨g, g1, g2, g3, g4, g5, g6⟩ := callFile_enter d c run (file := some path) (label := none) (path := some path) (zero := path)
    (f := f) (g := { f with eof := false, name := path }) w (by simp [hfull]) rfl rfl
    (kept_line hq hc hp he ha) hall hpass
  refine ⟨g, g1, g2, ?_, g4, ?_⟩
  · exact updateFrame_same d g t (by rw [g2]; exact hpne) (by rw [g2, g3]; exact hl) (by rw [g2]; exact hr) (by rw [g4]; exact hs)
  · obtain ⟨b, i1, i2⟩ := isScript_iff path hlen hd hcar
    unfold cmdCall
    rw [callScan_one hq hc hp he c cmdly h ha h1 h2 hh]
    simp only [Res.ok_bind, callTake]
    rw [if_neg hfile.2]
    simp only [if_true, hfile.1, false_and, if_false, ne_eq, not_true, hfind]
    unfold callFound
    rw [i1, i2.2 hsp]
    exact g6

/-- Violation: with `/e`, a file whose path differs from that of the running script only by case is taken for the running script: the label is
searched in the latter, whatever the file contains. -/
theorem C63_other_case {q : Char → Bool} (hq : q '"' = true) (hc : q '^' = true) (hp : q '%' = true) (he : q '!' = true)
    {W : Type} (d : CallDisk) (c : Ctx) (rv : List Char → Res (List Char)) (run : CallState → W → Res (CallState × W))
    (runLine : List Char → CallState → W → Res (CallState × W)) (line e file label path tail all : List Char) (as : List (List Char))
    (f : CallState) (w : W) (h : ParamPrefix q line [e, file, label] tail) (ha : ParamLine q tail as) (hsw : fold e = "/e".toList)
    (hlab : label.head? = some ':') (hfile : file ≠ [] ∧ file.head? ≠ some ':') (h1 : fold file ≠ "/e".toList)
    (h2 : fold file ≠ "/?".toList) (hh : ∀ a, as.head? = some a → fold a ≠ "/?".toList) (hall : c.ex tail = .ok all)
    (hpass : ∀ a ∈ as.drop 9, Passable a) (hfull : d.full file = some path) (heq : fold f.loaded = fold path)
    (t : FileText) (pos : Nat) (b : List (List Char)) (hn : f.name ≠ []) (hl : f.loaded = f.name) (hr : d.read f.name = some t)
    (hs : f.script = { loadScript t.texts t.size with curr := pos }) (hb : LabelledAt t.texts label b) :
    ∃ g, Begun f g label as all ∧ g.name = f.name ∧ g.script.cmds.drop g.script.curr = commands b ∧
      cmdCall d c.ex rv false run runLine line f w = (run g w).bind (backTo f) := by
  have hlne : label ≠ [] := by rintro rfl; simp at hlab
  have hl2 : fold label ≠ "/?".toList := by
    cases label with
    | nil => simp at hlab
    | cons x r => cases hlab; intro h; exact absurd (List.cons.inj h).1 (by decide)
  have hlh : ¬ (file.head? = some ':') := hfile.2
  have hscan : callScan c.ex false {} (skipBlanks line) = .ok (.done ⟨2, true, label, file⟩ tail) := by
    rw [callScan_two hq hc hp he c h ha hsw h1 h2 hl2 hh]
    simp [callTake, hlab, hlh]
  obtain ⟨sc, j1, j2⟩ := jump_own d f label t pos b hn hl hr hs hb
  have hjump : jumpFrame d f label (some path) = .ok (some { f with script := sc }) := by
    rw [← j1]
    simp only [jumpFrame]
    rw [if_neg (by simpa using stricmp_zero.2 heq), if_neg hn]
  obtain ⟨g, g1, g2, g3, g4, g5, g6⟩ := callFile_enter d c run (file := some file) (label := some label) (path := some path)
    (zero := label) (f := f) (g := { f with script := sc }) w (by simp [hfull])
    (by simp only [callInput]; rw [hjump]; rfl) rfl (kept_line hq hc hp he ha) hall hpass
  refine ⟨g, g1, g2, by rw [g4]; exact j2, ?_⟩
  unfold cmdCall
  rw [hscan]
  simp only [Res.ok_bind, hfile.1, hlne, false_and, if_false, ne_eq, not_false_eq_true, if_true]
  exact g6

/-- Violation: with `/e` and no file, a first argument that begins with a colon is taken for a second label and lost; the first label counts. -/
theorem C63_label_lost {q : Char → Bool} (hq : q '"' = true) (hc : q '^' = true) (hp : q '%' = true) (he : q '!' = true)
    {W : Type} (d : CallDisk) (c : Ctx) (rv : List Char → Res (List Char)) (run : CallState → W → Res (CallState × W))
    (runLine : List Char → CallState → W → Res (CallState × W)) (line e label a tail all : List Char) (as : List (List Char))
    (f : CallState) (w : W) (h : ParamPrefix q line [e, label, a] tail) (ha : ParamLine q tail as) (hsw : fold e = "/e".toList)
    (hlab : label.head? = some ':') (hal : a.head? = some ':')
    (hh : ∀ x, as.head? = some x → fold x ≠ "/?".toList) (hall : c.ex tail = .ok all) (hpass : ∀ x ∈ as.drop 9, Passable x)
    (t : FileText) (pos : Nat) (b : List (List Char)) (hn : f.name ≠ []) (hl : f.loaded = f.name) (hr : d.read f.name = some t)
    (hs : f.script = { loadScript t.texts t.size with curr := pos }) (hb : LabelledAt t.texts label b) :
    ∃ g, Begun f g label as all ∧ g.name = f.name ∧ g.script.cmds.drop g.script.curr = commands b ∧
      cmdCall d c.ex rv false run runLine line f w = (run g w).bind (backTo f) := by
  have hlne : label ≠ [] := by rintro rfl; simp at hlab
  have key : ∀ x : List Char, x.head? = some ':' → fold x ≠ "/?".toList ∧ fold x ≠ "/e".toList := by
    intro x hx
    cases x with
    | nil => simp at hx
    | cons y r => cases hx; exact ⟨fun h => absurd (List.cons.inj h).1 (by decide), fun h => absurd (List.cons.inj h).1 (by decide)⟩
  have hscan : callScan c.ex false {} (skipBlanks line) = .ok (.done ⟨2, true, label, []⟩ tail) := by
    rw [callScan_two hq hc hp he c h ha hsw (key _ hlab).2 (key _ hlab).1 (key _ hal).1 hh]
    simp [callTake, hlab, hal, hlne]
  obtain ⟨sc, j1, j2⟩ := jump_own d f label t pos b hn hl hr hs hb
  obtain ⟨g, g1, g2, g3, g4, g5, g6⟩ := callFile_enter d c run (file := none) (label := some label) (path := none)
    (zero := label) (f := f) (g := { f with script := sc }) w (by simp)
    (by simp only [callInput]; rw [j1]; rfl) rfl (kept_line hq hc hp he ha) hall hpass
  refine ⟨g, g1, g2, by rw [g4]; exact j2, ?_⟩
  unfold cmdCall
  rw [hscan]
  simp only [Res.ok_bind, hlne, and_false, if_false, ne_eq, not_false_eq_true, if_true]
  exact g6

/-- Violation: calling a label that the running script does not have is undefined (C19). -/
theorem C63_label_missing {q : Char → Bool} (hq : q '"' = true) (hc : q '^' = true) (hp : q '%' = true) (he : q '!' = true)
    {W : Type} (d : CallDisk) (c : Ctx) (rv : List Char → Res (List Char)) (cmdly : Bool) (run : CallState → W → Res (CallState × W))
    (runLine : List Char → CallState → W → Res (CallState × W)) (line label tail : List Char) (as : List (List Char)) (f : CallState) (w : W)
    (h : ParamPrefix q line [label] tail) (ha : ParamLine q tail as) (hlab : label.head? = some ':')
    (hh : ∀ a, as.head? = some a → fold a ≠ "/?".toList)
    (t : FileText) (pos : Nat) (hn : f.name ≠ []) (hl : f.loaded = f.name) (hr : d.read f.name = some t)
    (hs : f.script = { loadScript t.texts t.size with curr := pos })
    (hx : ∀ x ∈ effective t.texts, isLabel x = true → ¬ LabelMatches (labelName x) label) :
    cmdCall d c.ex rv cmdly run runLine line f w = .ub := by
  have hne : label ≠ [] := by rintro rfl; simp at hlab
  have hl1 : fold label ≠ "/e".toList ∧ fold label ≠ "/?".toList := by
    cases label with
    | nil => simp at hlab
    | cons x r => cases hlab; constructor <;> (intro h; exact absurd (List.cons.inj h).1 (by decide))
  unfold cmdCall
  rw [callScan_one hq hc hp he c cmdly h ha hl1.1 hl1.2 hh]
  simp only [Res.ok_bind, callTake, hlab, if_true, hne, and_false, if_false, ne_eq, not_false_eq_true]
  unfold callFile
  simp only [Option.map_none, Option.join, callInput, jumpFrame, Option.bind_none]
  rw [if_neg hn, updateFrame_same d f t hn hl hr (by rw [hs]; rfl)]
  simp only
  rw [hs, C19_missing_label_undefined t.texts t.size pos label hx]
  rfl

/-- Violation: a program whose path has a blank is not run: the line run begins with the part of the path before the blank. -/
theorem C63_program_blank (c : Ctx) (a b tail : List Char) (ha : a ≠ [])
    (hplain : ∀ x ∈ a, ¬ Blank x ∧ x ≠ '"' ∧ x ≠ '^' ∧ x ≠ '%' ∧ x ≠ '!') :
    nextParam stdDelims c.ex ((a ++ ' ' :: b) ++ ' ' :: tail) = .ok (some (a, ' ' :: b ++ ' ' :: tail)) := by
  have hw : Written (fun c => c == '"' || c == '^' || c == '%' || c == '!') a a :=
    .word ha (fun c hc => (hplain c hc).1) (fun hm => (hplain _ hm).2.1 rfl) (fun c hc => by have := hplain c hc; simp [this])
  have := readsAs_written rfl rfl rfl rfl hw c [] (' ' :: b ++ ' ' :: tail) (by simp) (.inr ⟨' ', b ++ ' ' :: tail, rfl, by decide⟩)
  simpa using this

/-! ### Examples -/

/-- The characters that are escaped. -/
def callQuote (c : Char) : Bool := c == '"' || c == '^' || c == '%' || c == '!'

/-- A context in which nothing is defined. -/
def callCtx : Ctx := ⟨false, fun _ => none, fun _ _ _ => [], fun _ => .ok none⟩

/-- A disk with a running script and another one. -/
def callDisk : CallDisk where
  find := fun n => if n = "b".toList then some "/s/b.cmd".toList else none
  full := fun n => if n = "b.cmd".toList ∨ n = "/s/b.cmd".toList then some "/s/b.cmd".toList else none
  read := fun n =>
    if n = "/s/a.bat".toList then some ⟨["call :x 1\n".toList, "goto :eof\n".toList, ":X\n".toList, "echo %1\n".toList], 32⟩
    else if n = "/s/b.cmd".toList then some ⟨["echo first\n".toList, ":x\n".toList, "echo other\n".toList], 24⟩ else none
  junk := false

/-- The script after its first line has been read. -/
def callFrame : CallState where
  name := "/s/a.bat".toList
  loaded := "/s/a.bat".toList
  script := { loadScript ["call :x 1\n".toList, "goto :eof\n".toList, ":X\n".toList, "echo %1\n".toList] 32 with curr := 1 }
  eof := false
  loops := fun _ => none
  args := fun _ => none
  locked := false
  abort := .no
  level := 3

theorem call_word {a : List Char} (h : a ≠ [] ∧ ∀ c ∈ a, ¬ Blank c ∧ c ≠ '"' ∧ callQuote c = false) : Written callQuote a a :=
  .word h.1 (fun c hc => (h.2 c hc).1) (fun hm => (h.2 _ hm).2.1 rfl) (fun c hc => (h.2 c hc).2.2)

theorem call_ex (t : List Char) (h : ∀ c ∈ t, c ≠ '^' ∧ c ≠ '%' ∧ c ≠ '!') : callCtx.ex t = .ok t := by
  have := delayedExpand_escape callCtx.delayed callCtx.loops callCtx.mods callCtx.getv
    (q := fun c => c == '^' || c == '%' || c == '!') rfl rfl rfl t
  rw [escape_none] at this
  · exact this
  · intro x hx
    have := h x hx
    simp [this]

example : ∃ g, Begun callFrame g ":x".toList ["1".toList] " 1".toList ∧ g.name = callFrame.name ∧ g.eof = callFrame.eof ∧
    g.script.cmds.drop g.script.curr = ["echo %1\n".toList] ∧
    cmdCall callDisk callCtx.ex .ok false (fun g w => Res.ok ({ g with level := 9, args := fun _ => none }, w + 1)) (fun _ f w => .ok (f, w))
      " :x 1".toList callFrame (0 : Nat) = .ok (9, { callFrame with level := 9 }, 1) :=
  C63_label_partial (q := callQuote) rfl rfl rfl rfl callDisk callCtx .ok false _ _ " :x 1".toList ":x".toList " 1".toList " 1".toList
    ["1".toList] callFrame 0
    (.last (w := " ".toList) (x := ":x".toList) (rest := " 1".toList) (by decide) (call_word (by decide)) (.inr ⟨' ', ['1'], rfl, by decide⟩))
    (.last (w := " ".toList) (x := "1".toList) (by decide) (call_word (by decide))) rfl
    (by intro a ha; cases ha; decide) (call_ex _ (by decide)) (by simp)
    ⟨["call :x 1\n".toList, "goto :eof\n".toList, ":X\n".toList, "echo %1\n".toList], 32⟩ 1 ["echo %1\n".toList]
    (by decide) rfl (by decide) rfl
    ⟨["call :x 1\n".toList, "goto :eof\n".toList], ":X\n".toList, by decide +kernel, by decide +kernel,
      (labelIs_iff _ _).1 (by decide +kernel), by
        intro x hx hl
        exfalso
        revert hl
        simp only [List.mem_cons, List.not_mem_nil, or_false] at hx
        rcases hx with rfl | rfl <;> decide +kernel⟩

example : ∃ g g', Begun callFrame g "/s/b.cmd".toList [] [] ∧ g.name = "/s/b.cmd".toList ∧ g.eof = false ∧
    updateFrame callDisk g = some g' ∧ g'.script.cmds.drop g'.script.curr = ["echo first\n".toList, "echo other\n".toList] ∧
    g'.name = g.name ∧ g'.args = g.args ∧ g'.loops = g.loops ∧
    cmdCall callDisk callCtx.ex .ok true (fun g w => Res.ok ({ g with level := 9, args := fun _ => none }, w + 1)) (fun _ f w => .ok (f, w))
      " b".toList callFrame (0 : Nat) = .ok (9, { callFrame with level := 9 }, 1) :=
  C63_script_partial (q := callQuote) rfl rfl rfl rfl callDisk callCtx .ok true _ _ " b".toList "b".toList "/s/b.cmd".toList [] []
    [] callFrame 0
    (.last (w := " ".toList) (x := "b".toList) (rest := []) (by decide) (call_word (by decide)) (.inl rfl))
    (.none (by simp)) (by decide) (by decide) (by decide) (by simp) (call_ex _ (by simp)) (by simp) (by decide) (by decide)
    ⟨"/s/b".toList, ".cmd".toList, rfl, by decide⟩ (by decide)
    (by rw [← driveOf_none]; decide) (by decide)
    ⟨["echo first\n".toList, ":x\n".toList, "echo other\n".toList], 24⟩ (by decide) (by decide)

example : ∃ g, Begun callFrame g ":x".toList ["1".toList] " 1".toList ∧ g.name = "/s/b.cmd".toList ∧ g.loaded = "/s/b.cmd".toList ∧
    g.eof = callFrame.eof ∧ g.script.cmds.drop g.script.curr = ["echo other\n".toList] ∧
    cmdCall callDisk callCtx.ex .ok false (fun g w => Res.ok ({ g with level := 9, args := fun _ => none }, w + 1)) (fun _ f w => .ok (f, w))
      "/e :x b.cmd 1".toList callFrame (0 : Nat) = .ok (9, { callFrame with level := 9 }, 1) :=
  C63_file_label_partial (q := callQuote) rfl rfl rfl rfl callDisk callCtx .ok _ _ "/e :x b.cmd 1".toList "/e".toList ":x".toList
    "b.cmd".toList "b.cmd".toList ":x".toList "/s/b.cmd".toList " 1".toList " 1".toList ["1".toList] callFrame 0
    (.cons (w := []) (x := "/e".toList) (b := ' ') (r := ":x b.cmd 1".toList) (by simp) (call_word (by decide)) (by decide)
      (.cons (w := " ".toList) (x := ":x".toList) (b := ' ') (r := "b.cmd 1".toList) (by decide) (call_word (by decide)) (by decide)
        (.last (w := " ".toList) (x := "b.cmd".toList) (rest := " 1".toList) (by decide) (call_word (by decide)) (.inr ⟨' ', ['1'], rfl, by decide⟩))))
    (.last (w := " ".toList) (x := "1".toList) (by decide) (call_word (by decide))) (by decide) (.inr ⟨rfl, rfl⟩) rfl (by decide)
    (by decide) (by decide) (by intro a ha; cases ha; decide) (call_ex _ (by decide)) (by simp) (by decide)
    ⟨["echo first\n".toList, ":x\n".toList, "echo other\n".toList], 24⟩ (by decide) (by decide) ["echo other\n".toList]
    ⟨["echo first\n".toList], ":x\n".toList, by decide +kernel, by decide +kernel, (labelIs_iff _ _).1 (by decide +kernel), by
        intro x hx hl
        exfalso
        revert hl
        simp only [List.mem_cons, List.not_mem_nil, or_false] at hx
        rcases hx with rfl; decide +kernel⟩

/-- The script calls itself by `a`: it goes on with its second command. -/
example : ∃ g, Begun callFrame g "/s/a.bat".toList [] [] ∧ g.name = "/s/a.bat".toList ∧
    updateFrame { callDisk with find := fun _ => some "/s/a.bat".toList, full := some } g = some g ∧ g.script = callFrame.script ∧
    cmdCall { callDisk with find := fun _ => some "/s/a.bat".toList, full := some } callCtx.ex .ok true
      (fun g w => Res.ok ({ g with level := 9, args := fun _ => none }, w + 1)) (fun _ f w => .ok (f, w))
      " a".toList callFrame (0 : Nat) = .ok (9, { callFrame with level := 9 }, 1) :=
  C63_self (q := callQuote) rfl rfl rfl rfl _ callCtx .ok true _ _ " a".toList "a".toList "/s/a.bat".toList [] [] [] callFrame 0
    (.last (w := " ".toList) (x := "a".toList) (rest := []) (by decide) (call_word (by decide)) (.inl rfl))
    (.none (by simp)) (by decide) (by decide) (by decide) (by simp) (call_ex _ (by simp)) (by simp) rfl rfl
    ⟨"/s/a".toList, ".bat".toList, rfl, by decide⟩ (by decide) (by rw [← driveOf_none]; decide) (by decide)
    ⟨["call :x 1\n".toList, "goto :eof\n".toList, ":X\n".toList, "echo %1\n".toList], 32⟩ (by decide) rfl (by decide +kernel)

end PBat
