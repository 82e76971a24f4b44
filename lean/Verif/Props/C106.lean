import Verif.Lemmas.Tty
/-
C106: the user and the interpreter at the terminal.
-/
namespace PBat.Tty
open PBat PBat.Spec PBat.Spec.Tty

/-- **C106 (lines).**  Whatever the order in which keys arrive, the terminal reports the cursor, the interpreter reads, runs programs, pauses or looks
for keys: the lines handed over are those the user entered, in order, each once and as its keys describe it; while the last one is being read it may
be missing.  Missing: keys typed at other times (`C106_ahead`, `C106_paste`, `C106_race`, `C106_answered`); what `C74_edit_partial` lacks. -/
theorem C106_lines_partial (u : CharTables) (complete : List Nat → Reply) (m : Mode) {h : List (List Nat)} (hh : ∀ t ∈ h, LineOk u.comb t)
    (hl : h.length ≤ 100) {entered : List (List (List Nat))} {now : List (List Nat)} {s : St}
    (hp : Patient u complete (St.init m (h.map uniText)) entered now s) {ts h1 : List (List Nat)} {e : Ed}
    (he : Entered u.comb h entered ts h1) (hr : EdRun u.comb (Able u.comb) (Ed.start h1) now e) :
    (s.phase = .idle → s.lines = ts.map (fun t => some (uniText t)) ∧ now = []) ∧
    ((∃ l, s.phase = .edit l) → s.lines = ts.map (fun t => some (uniText t)) ∨
      s.lines = ts.dropLast.map (fun t => some (uniText t)) ∧ ts ≠ [] ∧ now = []) ∧
    s.phase ≠ .undef := by
  have hg := patient_good hh hl hp he hr
  refine ⟨fun hi => ?_, fun ⟨l, hi⟩ => ?_, fun hi => ?_⟩
  · cases hg with
    | idle _ a1 _ _ a4 => exact ⟨a1, a4⟩
    | ask0 h => rw [hi] at h; cases h
    | ask1 h => rw [hi] at h; cases h
    | edit h => rw [hi] at h; cases h
    | entered h => rw [hi] at h; cases h
    | off h => rw [hi] at h; cases h
  · cases hg with
    | idle h => rcases h with h | ⟨_, _, h⟩ <;> (rw [hi] at h; cases h)
    | ask0 h => rw [hi] at h; cases h
    | ask1 h => rw [hi] at h; cases h
    | edit _ _ a => exact .inl a
    | entered _ _ a1 a2 _ _ _ _ a3 => exact .inr ⟨by rw [a1, a2, List.dropLast_concat]; rfl, by rw [a2]; simp, a3⟩
    | off h => rw [hi] at h; cases h
  · cases hg with
    | idle h => rcases h with h | ⟨_, _, h⟩ <;> (rw [hi] at h; cases h)
    | ask0 h => rw [hi] at h; cases h
    | ask1 h => rw [hi] at h; cases h
    | edit h => rw [hi] at h; cases h
    | entered h => rw [hi] at h; cases h
    | off h => rw [hi] at h; cases h

/-- **C106 (nothing is left waiting).**  At any time the interpreter, without anything more being typed, gets to a point where it holds all that was
typed: the lines entered are handed over and, at the prompt, the line edited is the one the keys since then make; or it waits for the report of the
cursor, for a key, or runs commands.  Missing: as in `C106_lines_partial`. -/
theorem C106_taken_partial (u : CharTables) (complete : List Nat → Reply) (m : Mode) {h : List (List Nat)} (hh : ∀ t ∈ h, LineOk u.comb t)
    (hl : h.length ≤ 100) {entered : List (List (List Nat))} {now : List (List Nat)} {s : St}
    (hp : Patient u complete (St.init m (h.map uniText)) entered now s) {ts h1 : List (List Nat)} {e : Ed}
    (he : Entered u.comb h entered ts h1) (hr : EdRun u.comb (Able u.comb) (Ed.start h1) now e) (hoff : s.phase ≠ .off) :
    ∃ s', Reads u complete s s' ∧ s'.lines = ts.map (fun t => some (uniText t)) ∧
      (s'.phase = .idle ∨ (∃ old got, s'.phase = .key old got) ∨ (∃ cols, s'.phase = .ask cols [] ∧ 0 < s'.asked) ∨
        ∃ l, s'.phase = .edit l ∧ l.buf = uniText e.line.text ∧ l.pos = (uniText e.line.before).length) := by
  have hg := patient_good hh hl hp he hr
  obtain ⟨o1, o2⟩ := entered_ok he hh hl
  cases hg with
  | idle hi a1 =>
    refine ⟨s, .refl, a1, ?_⟩
    rcases hi with hi | hi
    · exact .inl hi
    · exact .inr (.inl hi)
  | ask0 hi _ a1 _ a3 => exact ⟨s, .refl, a1, .inr (.inr (.inl ⟨_, hi, by omega⟩))⟩
  | @ask1 cols buf r c hi hc a1 a2 a3 a4 hrep b1 b2 b3 hq =>
    have hsplit : ∃ a, s.queue = a ++ [82] ∧ buf ++ a = 27 :: 91 :: dec r ++ 59 :: dec c := by
      have hrep' : buf ++ s.queue = (27 :: 91 :: dec r ++ 59 :: dec c) ++ [82] := by rw [hrep]; rfl
      refine ⟨s.queue.dropLast, ?_, ?_⟩
      · have h2 : (buf ++ s.queue).getLast? = some 82 := by rw [hrep', List.getLast?_concat]
        rw [List.getLast?_append] at h2
        cases hlq : s.queue.getLast? with
        | none => rw [List.getLast?_eq_none_iff] at hlq; exact absurd hlq hq
        | some x =>
          rw [hlq] at h2
          simp at h2
          subst h2
          obtain ⟨l', hl'⟩ := List.getLast?_eq_some_iff.1 hlq
          rw [hl', List.dropLast_concat]
      · have := congrArg List.dropLast hrep'
        rwa [List.dropLast_concat, List.dropLast_append_of_ne_nil hq] at this
    obtain ⟨a, q1, q2⟩ := hsplit
    have hno := report_no_end r c
    have hlen := report_length b1 b3
    have hlen2 : (buf ++ a).length < 31 := by
      rw [q2]
      have : (report r c).length = (27 :: 91 :: dec r ++ 59 :: dec c).length + 1 := by
        show ((27 :: 91 :: dec r ++ 59 :: dec c) ++ [82]).length = _
        rw [List.length_append]; rfl
      omega
    have hreads := reads_ask (u := u) complete hi (rest := []) q1 (fun x hx => hno x (by rw [← q2]; simp [hx])) hlen2
    subst a4
    cases hr
    have hrel := start_rel u hc (promptLen (buf ++ a)) o1 o2
    refine ⟨_, hreads, a1, .inr (.inr (.inr ⟨_, rfl, ?_, ?_⟩))⟩
    · rfl
    · rfl
  | @edit l e0 pend hi _ a1 hrel hrun hq =>
    obtain ⟨l', g1, g2⟩ := reads_keys complete hrun [] hi hrel (by rw [List.append_nil]; exact hq)
    exact ⟨_, g2, a1, .inr (.inr (.inr ⟨l', rfl, g1.buf, g1.pos⟩))⟩
  | @entered l e0 e1 pend ts0 hi _ a1 a2 hrel hrun hq _ _ _ hraw =>
    obtain ⟨l', g1, g2⟩ := reads_keys complete hrun [13] hi hrel hq
    have g3 := read_enter complete (s := { s with queue := [13], phase := .edit l' }) rfl g1 rfl
    refine ⟨_, reads_trans g2 (.step g3 .refl), ?_, .inl rfl⟩
    show s.lines ++ [_] = _
    rw [a1, a2]
    simp [texts]
  | off hi => exact absurd hi hoff

/-- The column the terminal reports is where the editor begins to write. -/
theorem C106_column (u : CharTables) (complete : List Nat → Reply) {s s1 s2 : St} {cols r c : Nat} (h1 : s.step u complete (.prompt cols) = some s1)
    (h2 : s1.step u complete (.report r c) = some s2) :
    Reads u complete s2 { s2 with queue := [], phase := .edit (lnStart s.hist cols (c - 1)) } := by
  simp only [St.step] at h1
  split at h1
  · split at h1
    · cases h1
      simp only [St.step] at h2
      split at h2
      · rename_i hb
        cases h2
        have hlen := report_length hb.2.1 hb.2.2.2
        have hlen2 : (27 :: 91 :: dec r ++ 59 :: dec c : List Nat).length < 31 := by
          have : (report r c).length = (27 :: 91 :: dec r ++ 59 :: dec c).length + 1 := by
            show ((27 :: 91 :: dec r ++ 59 :: dec c) ++ [82]).length = _
            rw [List.length_append]; rfl
          omega
        have := reads_ask (u := u) complete (s := { s.prompt cols with queue := (s.prompt cols).queue ++ report r c, asked := (s.prompt cols).asked - 1 })
          (cols := cols) (buf := []) (a := 27 :: 91 :: dec r ++ 59 :: dec c) (rest := []) rfl
          (by show [] ++ report r c = _; rw [List.nil_append]; rfl) (report_no_end r c) (by rw [List.nil_append]; exact hlen2)
        rw [List.nil_append, promptLen_report r c hb.2.2.1 hb.2.2.2] at this
        exact this
      · cases h2
    · cases h1
  · cases h1

theorem patient_reads {u : CharTables} {complete : List Nat → Reply} {s0 s s' : St} {entered now} (h : Reads u complete s s')
    (hp : Patient u complete s0 entered now s) : Patient u complete s0 entered now s' := by
  induction h with
  | refl => exact hp
  | step hs _ ih => exact ih (.other hp (by intro bs h; cases h) (by intro bs h; cases h) hs)

theorem patient_types {u : CharTables} {complete : List Nat → Reply} {s0 : St} {entered : List (List (List Nat))} {now keys : List (List Nat)}
    {s : St} {l : LnState} (hi : s.phase = .edit l) (hn : s.lines.length = entered.length) (hm : s.mode = s.orig.raw)
    (hp : Patient u complete s0 entered now s) : Patient u complete s0 entered (now ++ keys) { s with queue := s.queue ++ keys.flatten } := by
  induction keys generalizing s now with
  | nil => simpa using hp
  | cons k keys ih =>
    have h1 := Patient.type (bs := k) hp hi hn rfl
    rw [typed_plain (by rw [hm]; rfl) (by rw [hm]; rfl)] at h1
    have h2 := ih (s := { s with queue := s.queue ++ k }) hi hn hm h1
    simpa using h2

/-- The hypotheses of `C106_lines_partial` can be met: every sequence of lines can be entered. -/
theorem C106_possible (u : CharTables) (complete : List Nat → Reply) (m : Mode) {h : List (List Nat)} (hh : ∀ t ∈ h, LineOk u.comb t)
    (hl : h.length ≤ 100) {entered : List (List (List Nat))} {ts h1 : List (List Nat)} (he : Entered u.comb h entered ts h1) :
    ∃ s, Patient u complete (St.init m (h.map uniText)) entered [] s ∧ s.phase = .idle := by
  have main : ∀ n (entered : List (List (List Nat))) (ts h1 : List (List Nat)), entered.length = n → Entered u.comb h entered ts h1 →
      ∃ s, Patient u complete (St.init m (h.map uniText)) entered [] s ∧ s.phase = .idle := by
    intro n
    induction n with
    | zero =>
      intro entered ts h1 hn he
      cases entered with
      | nil => exact ⟨_, .start, rfl⟩
      | cons => simp at hn
    | succ n ih =>
      intro entered ts h1 hn he
      obtain ⟨ks, k, rfl⟩ : ∃ ks k, entered = ks ++ [k] := by
        rcases List.eq_nil_or_concat entered with rfl | ⟨ks, k, rfl⟩
        · simp at hn
        · exact ⟨ks, k, by simp⟩
      obtain ⟨ts0, h0, e, g1, g2, g3, g4⟩ := entered_split he
      obtain ⟨s, p1, p2⟩ := ih ks ts0 h0 (by simpa using hn) g1
      have hgood := patient_good hh hl p1 g1 .nil
      obtain ⟨o1, o2⟩ := entered_ok g1 hh hl
      cases hgood with
      | ask0 hi => rw [p2] at hi; cases hi
      | ask1 hi => rw [p2] at hi; cases hi
      | edit hi => rw [p2] at hi; cases hi
      | entered hi => rw [p2] at hi; cases hi
      | off hi => rw [p2] at hi; cases hi
      | idle _ a1 a2 a3 _ =>
        have s1 : s.step u complete (.prompt 80) = some (s.prompt 80) := by simp [St.step, p2]
        have s2 : (s.prompt 80).step u complete (.report 1 1) =
            some { s.prompt 80 with queue := (s.prompt 80).queue ++ report 1 1, asked := (s.prompt 80).asked - 1 } := by
          simp [St.step, St.prompt]
        have q1 := Patient.other p1 (by intro bs h; cases h) (by intro bs h; cases h) s1
        have q2 := Patient.other q1 (by intro bs h; cases h) (by intro bs h; cases h) s2
        have q3 := patient_reads (C106_column u complete s1 s2) q2
        have hlen := entered_length g1
        have q4 := patient_types (keys := k) rfl (by show s.lines.length = ks.length; rw [a1]; simp [texts, hlen]) rfl q3
        rw [List.nil_append] at q4
        have q5 := Patient.enter q4 rfl (by show s.lines.length = ks.length; rw [a1]; simp [texts, hlen]) rfl
        rw [typed_plain rfl rfl] at q5
        have hrel : EdRel u (lnStart s.hist 80 0) (Ed.start h0) := by rw [a2]; exact start_rel u (by omega) 0 o1 o2
        obtain ⟨l', r1, r2⟩ := reads_keys complete g2 [13] (s := { s.prompt 80 with
            queue := [] ++ k.flatten ++ [13], asked := (s.prompt 80).asked - 1, phase := .edit (lnStart s.hist 80 0) }) rfl hrel (by simp)
        have r3 := read_enter complete (s := { s.prompt 80 with
            queue := [13], asked := (s.prompt 80).asked - 1, phase := .edit l' }) rfl r1 rfl
        exact ⟨_, patient_reads (reads_trans r2 (.step r3 .refl)) q5, rfl⟩
  exact main _ entered ts h1 rfl he

/-- **C106 (modes).**  While programs leave the terminal as they found it: every program finds it in the mode it was in when the interpreter began, and
so does the user after the end, whatever happens in between and wherever it ends.  Missing: TIMEOUT (`C106_timeout`), Ctrl-C while a key is waited for
(`C106_break`), the end while a key is waited for. -/
theorem C106_modes_partial (u : CharTables) (complete : List Nat → Reply) (m : Mode) (hist : List (List Nat)) {s : St}
    (h : CalmRun u complete (St.init m hist) s) : (s.phase = .idle ∨ s.phase = .off → s.mode = m) ∧ ∀ m' ∈ s.seen, m' = m := by
  have h0 : ModeOk m (St.init m hist) := ⟨rfl, rfl⟩
  have h1 := modeOk_run h0 h
  obtain ⟨n, hn⟩ := seen_run h0 h
  refine ⟨fun hi => ?_, fun m' hm' => ?_⟩
  · unfold ModeOk at h1
    rcases hi with hi | hi
    · rw [hi] at h1; exact h1.1
    · rw [hi] at h1; exact h1
  · rw [hn, List.mem_append] at hm'
    rcases hm' with hm' | hm'
    · simp [St.init] at hm'
    · exact List.eq_of_mem_replicate hm'

/-- A pause waits for a key, whichever it is, and ends with it; then the terminal is as before.  Missing: keys pressed before (`C106_skipped`), the
escape key (`C106_escape`), Ctrl-C. -/
theorem C106_pause_partial (u : CharTables) (complete : List Nat → Reply) {s : St} (hi : s.phase = .idle) (hh : s.hold = []) (hq : s.queue = [])
    {b : Nat} (h27 : b ≠ 27) (h3 : b ≠ 3) :
    ∃ s1 s2 s3, s.step u complete .pause = some s1 ∧ s1.step u complete .read = none ∧ s1.step u complete (.press [b]) = some s2 ∧
      s2.step u complete .read = some s3 ∧ s3 = s := by
  obtain ⟨mode, queue, asked, hold, buffered, orig, rawmode, phase, hist, lines, seen⟩ := s
  simp only at hi hh hq
  subst hi hh hq
  have hb : ∀ x, x ≠ 27 → keyDone ([] ++ [x]) = true := by intro x hx; simp [keyDone, getKey, hx]
  refine ⟨_, _, _, rfl, rfl, rfl, ?_, rfl⟩
  simp only [St.step, St.typed, List.foldl_cons, List.foldl_nil, St.typed1]
  rw [if_neg (fun hh => h3 hh.2)]
  have hx : ∀ c : Prop, [Decidable c] → (if c then 10 else b) ≠ 27 := by intro c _; split <;> omega
  unfold St.read
  dsimp only
  cases buffered
  · simp only [St.fgetc, List.nil_append, Bool.false_eq_true, if_false]
    have := hb _ (hx (mode.single.icrnl = true ∧ b = 13))
    rw [List.nil_append] at this
    rw [if_pos this]
  · simp only [St.fgetc, List.nil_append, if_true, List.take_nil, List.drop_nil]
    have := hb _ (hx (mode.single.icrnl = true ∧ b = 13))
    rw [List.nil_append] at this
    rw [if_pos this]

theorem fgetc_pending {s : St} {b : Nat} {rest : List Nat} (h : pending s = b :: rest) : ∃ hold queue, s.fgetc = some (b, { s with hold := hold, queue := queue }) ∧
    hold ++ queue = rest := by
  obtain ⟨mode, queue, asked, hold, buffered, orig, rawmode, phase, hist, lines, seen⟩ := s
  simp only [pending] at h
  cases hold with
  | cons x hold =>
    simp only [List.cons_append, List.cons.injEq] at h
    obtain ⟨rfl, h⟩ := h
    exact ⟨hold, queue, rfl, h⟩
  | nil =>
    simp only [List.nil_append] at h
    subst h
    cases buffered
    · exact ⟨[], rest, rfl, rfl⟩
    · exact ⟨_, _, rfl, List.take_append_drop _ _⟩

theorem key_read (u : CharTables) (complete : List Nat → Reply) {s : St} {old : Mode} {got : List Nat} {b : Nat} {rest : List Nat} (hi : s.phase = .key old got)
    (hp : pending s = b :: rest) : ∃ hold queue, hold ++ queue = rest ∧ s.step u complete .read = some (
      if keyDone (got ++ [b]) then { s with hold := hold, queue := queue, mode := old, phase := .idle }
      else { s with hold := hold, queue := queue, phase := .key old (got ++ [b]) }) := by
  obtain ⟨hold, queue, h1, h2⟩ := fgetc_pending hp
  refine ⟨hold, queue, h2, ?_⟩
  show s.read u complete = _
  rw [St.read.eq_def, hi]
  simp only [h1]
  split <;> rfl

theorem key_more (u : CharTables) (complete : List Nat → Reply) {s : St} {old : Mode} {got : List Nat} {b : Nat} {rest : List Nat}
    (hi : s.phase = .key old got) (hp : pending s = b :: rest) (hd : keyDone (got ++ [b]) = false) :
    ∃ s1, s.step u complete .read = some s1 ∧ s1.phase = .key old (got ++ [b]) ∧ pending s1 = rest ∧ s1.lines = s.lines := by
  obtain ⟨h, q, e, r⟩ := key_read u complete hi hp
  rw [if_neg (by rw [hd]; decide)] at r
  exact ⟨_, r, rfl, e, rfl⟩

theorem key_end (u : CharTables) (complete : List Nat → Reply) {s : St} {old : Mode} {got : List Nat} {b : Nat} {rest : List Nat}
    (hi : s.phase = .key old got) (hp : pending s = b :: rest) (hd : keyDone (got ++ [b]) = true) :
    ∃ s1, s.step u complete .read = some s1 ∧ s1.phase = .idle ∧ pending s1 = rest ∧ s1.mode = old ∧ s1.lines = s.lines := by
  obtain ⟨h, q, e, r⟩ := key_read u complete hi hp
  rw [if_pos hd] at r
  exact ⟨_, r, rfl, e, rfl, rfl⟩

/-- One PAUSE takes the bytes of one key, those pressed first, and leaves the others. -/
theorem C106_one_key (u : CharTables) (complete : List Nat → Reply) {s : St} (hi : s.phase = .idle) {k rest : List Nat} (hk : PauseKey k)
    (hp : pending s = k ++ rest) :
    ∃ s1 s2, s.step u complete .pause = some s1 ∧ Reads u complete s1 s2 ∧ s2.phase = .idle ∧ pending s2 = rest ∧ s2.mode = s.mode ∧
      s2.lines = s.lines := by
  have h1 : s.step u complete .pause = some { s with mode := s.mode.single, phase := .key s.mode [] } := by simp only [St.step, hi]
  have key := fun b r => key_more u complete (s := { s with mode := s.mode.single, phase := .key s.mode [] }) (b := b) (rest := r) rfl
  cases hk with
  | plain h27 =>
    obtain ⟨s2, r2, p2, e2, m2, l2⟩ := key_end u complete (s := { s with mode := s.mode.single, phase := .key s.mode [] }) rfl hp
      (by simp [keyDone, getKey, h27])
    exact ⟨_, s2, h1, .step r2 .refl, p2, e2, m2, l2⟩
  | esc h27 h91 =>
    obtain ⟨s2, r2, p2, e2, l2⟩ := key _ _ hp (by decide)
    obtain ⟨s3, r3, p3, e3, m3, l3⟩ := key_end u complete p2 e2 (by simp [keyDone, getKey, h27]; omega)
    exact ⟨_, s3, h1, .step r2 (.step r3 .refl), p3, e3, m3, l3.trans l2⟩
  | arrow h27 h2 h3 h4 h5 =>
    obtain ⟨s2, r2, p2, e2, l2⟩ := key _ _ hp (by decide)
    obtain ⟨s3, r3, p3, e3, l3⟩ := key_more u complete p2 e2 (by decide)
    obtain ⟨s4, r4, p4, e4, m4, l4⟩ := key_end u complete p3 e3 (by
      simp [keyDone, getKey, h27]; omega)
    exact ⟨_, s4, h1, .step r2 (.step r3 (.step r4 .refl)), p4, e4, m4, l4.trans (l3.trans l2)⟩
  | tilde hc hd =>
    obtain ⟨s2, r2, p2, e2, l2⟩ := key _ _ hp (by decide)
    obtain ⟨s3, r3, p3, e3, l3⟩ := key_more u complete p2 e2 (by decide)
    obtain ⟨s4, r4, p4, e4, l4⟩ := key_more u complete p3 e3 (by rcases hc with rfl | rfl | rfl | rfl <;> decide)
    obtain ⟨s5, r5, p5, e5, m5, l5⟩ := key_end u complete p4 e4 (by
      rcases hc with rfl | rfl | rfl | rfl <;> simp [keyDone, getKey, hd])
    exact ⟨_, s5, h1, .step r2 (.step r3 (.step r4 (.step r5 .refl))), p5, e5, m5, l5.trans (l4.trans (l3.trans l2))⟩

/-- A program that leaves the terminal in another mode: the programs after it find that one. -/
theorem C106_left (u : CharTables) (complete : List Nat → Reply) {m m' : Mode} {hist : List (List Nat)} {s s1 s2 : St}
    (h : CalmRun u complete (St.init m hist) s) (h1 : s.step u complete (.program m') = some s1) (h2 : CalmRun u complete s1 s2) :
    (s2.phase = .idle ∨ s2.phase = .off → s2.mode = m') ∧ ∃ n, s2.seen = s.seen ++ m :: List.replicate n m' := by
  have h0 := modeOk_run (m := m) (s0 := St.init m hist) ⟨rfl, rfl⟩ h
  simp only [St.step] at h1
  split at h1
  · rename_i hp
    cases h1
    unfold ModeOk at h0
    rw [hp] at h0
    have hok : ModeOk m' { s with mode := m', seen := s.seen ++ [s.mode] } := by
      unfold ModeOk
      dsimp only
      rw [hp]
      exact ⟨rfl, h0.2⟩
    refine ⟨fun hi => ?_, ?_⟩
    · have h3 := modeOk_run hok h2
      unfold ModeOk at h3
      rcases hi with hi | hi
      · rw [hi] at h3; exact h3.1
      · rw [hi] at h3; exact h3
    · obtain ⟨n, hn⟩ := seen_run hok h2
      exact ⟨n, by rw [hn, h0.1]; simp⟩
  · cases h1

/-! ### Violations -/

/-- Keys typed while commands run are lost: the prompt begins as if they had not been typed. -/
theorem C106_ahead (u : CharTables) (complete : List Nat → Reply) (s : St) {bs : List Nat} (h3 : 3 ∉ bs) (cols : Nat) :
    s.run u complete [.type bs, .prompt cols] = s.run u complete [.prompt cols] := by
  obtain ⟨q, hq⟩ := typed_quiet s bs h3
  simp only [St.run, St.step, hq]
  cases s.phase <;> rfl

/-- Of lines typed (or pasted) at once only the first one arrives: whatever follows Enter is lost. -/
theorem C106_paste (u : CharTables) (complete : List Nat → Reply) (m : Mode) {h : List (List Nat)} (hh : ∀ t ∈ h, LineOk u.comb t)
    (hl : h.length ≤ 100) {entered : List (List (List Nat))} {s : St} (hp : Patient u complete (St.init m (h.map uniText)) entered [] s)
    {l : LnState} (hi : s.phase = .edit l) (hn : s.lines.length = entered.length) {ts h1 : List (List Nat)} {keys : List (List Nat)} {e : Ed}
    (he : Entered u.comb h entered ts h1) (hr : EdRun u.comb (Able u.comb) (Ed.start h1) keys e) (more : List Nat) :
    ∃ s1 s2, s.step u complete (.type (keys.flatten ++ 13 :: more)) = some s1 ∧ Reads u complete s1 s2 ∧ s2.phase = .idle ∧
      s2.queue = [] ∧ s2.lines = (ts ++ [e.line.text]).map fun t => some (uniText t) := by
  have hg := patient_good hh hl hp he .nil
  have hlen := entered_length he
  cases hg with
  | idle h => rcases h with h | ⟨_, _, h⟩ <;> (rw [hi] at h; cases h)
  | ask0 h => rw [hi] at h; cases h
  | ask1 h => rw [hi] at h; cases h
  | @edit l e0 pend hi' a1 a2 hrel hrun hq hm hraw =>
    refine ⟨{ s with queue := s.queue ++ (keys.flatten ++ 13 :: more) }, ?_⟩
    obtain ⟨l', g1, g2⟩ := reads_keys complete (edRun_append hrun hr) (13 :: more)
      (s := { s with queue := s.queue ++ (keys.flatten ++ 13 :: more) }) hi' hrel (by simp [hq])
    have g3 := read_enter complete (s := { s with queue := 13 :: more, phase := .edit l' }) rfl g1 rfl
    refine ⟨_, by simp only [St.step]; rw [typed_plain (by rw [hm]; rfl) (by rw [hm]; rfl)], reads_trans g2 (.step g3 .refl), rfl, ?_, ?_⟩
    · unfold St.leave
      rw [cooked_raw (by exact hraw)]
    · show s.lines ++ [_] = _
      rw [a2]; simp [texts]
  | entered _ _ a2 a3 =>
    rw [a2] at hn
    rw [a3] at hlen
    simp [texts] at hn hlen
    omega
  | off h => rw [hi] at h; cases h

/-- Keys that arrive before the terminal reports its cursor are taken for the report: they are lost, and so is the place of the prompt. -/
theorem C106_race (u : CharTables) (complete : List Nat → Reply) {s s1 : St} {cols : Nat} (h1 : s.step u complete (.prompt cols) = some s1)
    {bs : List Nat} (hb : bs ≠ []) (hesc : bs.head? ≠ some 27) (hR : ∀ x ∈ bs, x ≠ 82) (hl : bs.length ≤ 16) {r c : Nat} (hr : r < 65536)
    (hc : 0 < c) (hc2 : c < 65536) :
    ∃ s3 s4, s1.run u complete [.type bs, .report r c] = some s3 ∧ Reads u complete s3 s4 ∧ s4.queue = [] ∧
      s4.phase = .edit (lnStart s.hist cols (2 ^ 64 - 2)) := by
  simp only [St.step] at h1
  split at h1
  · split at h1
    · cases h1
      have ht : (s.prompt cols).typed bs = { s.prompt cols with queue := (s.prompt cols).queue ++ bs } := typed_plain rfl rfl bs
      refine ⟨{ s.prompt cols with queue := (s.prompt cols).queue ++ bs ++ report r c, asked := s.asked }, ?_⟩
      have hlen := report_length hr hc2
      have hlen2 : (27 :: 91 :: dec r ++ 59 :: dec c : List Nat).length < 14 := by
        have : (report r c).length = (27 :: 91 :: dec r ++ 59 :: dec c).length + 1 := by
          show ((27 :: 91 :: dec r ++ 59 :: dec c) ++ [82]).length = _
          rw [List.length_append]; rfl
        omega
      have hreads := reads_ask (u := u) complete
        (s := { s.prompt cols with queue := (s.prompt cols).queue ++ bs ++ report r c, asked := s.asked })
        (cols := cols) (buf := []) (a := bs ++ (27 :: 91 :: dec r ++ 59 :: dec c)) (rest := []) rfl
        (by
          show [] ++ bs ++ report r c = _
          rw [List.nil_append, List.append_assoc]
          rfl)
        (by
          intro x hx
          rw [List.mem_append] at hx
          rcases hx with hx | hx
          · exact hR x hx
          · exact report_no_end r c x hx)
        (by rw [List.nil_append, List.length_append]; omega)
      have hpl : promptLen ([] ++ (bs ++ (27 :: 91 :: dec r ++ 59 :: dec c))) = 2 ^ 64 - 2 := by
        cases bs with
        | nil => exact absurd rfl hb
        | cons x xs =>
          have hx : x ≠ 27 := by intro hh; subst hh; simp at hesc
          have : cursorColumn ([] ++ (x :: xs ++ (27 :: 91 :: dec r ++ 59 :: dec c))) = -1 := by
            rw [cursorColumn.eq_def]
            split
            · rename_i hh; simp only [List.nil_append, List.cons_append, List.cons.injEq] at hh; exact absurd hh.1 hx
            · rfl
          unfold promptLen
          rw [this]
          decide
      rw [hpl] at hreads
      refine ⟨_, ?_, hreads, rfl, rfl⟩
      simp only [St.run, St.step, ht]
      rw [if_pos ⟨by show 0 < s.asked + 1; omega, hr, hc, hc2⟩]
      rfl
    · cases h1
  · cases h1

theorem edRun_ascii {mark : Nat → Bool} (hmark : ∀ c, c < 128 → mark c = false) (cs a : List Nat) {s o n}
    (hc : ∀ c ∈ cs, 0 < c ∧ c < 128 ∧ c ∉ controlKeys) (hroom : (uniText (a ++ cs)).length ≤ lineRoom) :
    EdRun mark (Able mark) ⟨⟨a, []⟩, s, o, n⟩ (cs.map fun c => [c]) ⟨⟨a ++ cs, []⟩, s, o, n⟩ := by
  induction cs generalizing a with
  | nil => rw [List.append_nil]; exact .nil
  | cons c cs ih =>
    have h := hc c (by simp)
    have hk : KeyBytes (.char c) [c] := by
      have := KeyBytes.char (c := c) ⟨h.1, by omega⟩ h.2.2
      rwa [uni_ascii h.2.1] at this
    have hroom' : (uniText (a ++ [c])).length ≤ lineRoom := by
      have : a ++ c :: cs = (a ++ [c]) ++ cs := by simp
      rw [this, uniText_append (a ++ [c]) cs, List.length_append] at hroom
      omega
    refine .cons hk (by intro hm; rw [hmark c h.2.1] at hm; cases hm) (.edit (.type (by
      rw [List.append_nil, ← List.length_append]
      have : uniText (a ++ [c]) = uniText a ++ uni c := by rw [uniText_append]; simp [uniText]
      rw [← this]; exact hroom'))) ?_
    have := ih (a ++ [c]) (fun x hx => hc x (by simp [hx])) (by simpa using hroom)
    simpa using this

/-- The letter R, typed before the terminal reports its cursor, ends the report: the report itself is then taken for typing, and the line
begins with the column and an R that the user has not typed there. -/
theorem C106_answered (u : CharTables) (hmark : ∀ c, c < 128 → u.comb c = false) (complete : List Nat → Reply) {h : List (List Nat)}
    (hh : ∀ t ∈ h, LineOk u.comb t) (hl : h.length ≤ 100) {s s1 : St} (hs : s.hist = h.map uniText) {cols : Nat}
    (h1 : s.step u complete (.prompt cols) = some s1) {r c : Nat} (hr : r < 10) (hc : 0 < c) (hc2 : c < 65536) :
    ∃ s3 s4 l, s1.run u complete [.type [82], .report r c] = some s3 ∧ Reads u complete s3 s4 ∧ s4.queue = [] ∧ s4.phase = .edit l ∧
      l.buf = dec c ++ [82] := by
  simp only [St.step] at h1
  split at h1
  · split at h1
    · rename_i hcols
      cases h1
      have ht : (s.prompt cols).typed [82] = { s.prompt cols with queue := (s.prompt cols).queue ++ [82] } := typed_plain rfl rfl [82]
      refine ⟨{ s.prompt cols with queue := (s.prompt cols).queue ++ [82] ++ report r c, asked := s.asked }, ?_⟩
      have r1 := reads_ask (u := u) complete
        (s := { s.prompt cols with queue := (s.prompt cols).queue ++ [82] ++ report r c, asked := s.asked })
        (cols := cols) (buf := []) (a := []) (rest := report r c) rfl rfl (by simp) (by simp)
      have hrel : EdRel u (lnStart (s.prompt cols).hist cols (promptLen ([] ++ []))) (Ed.start h) := by
        show EdRel u (lnStart s.hist cols _) _
        rw [hs]; exact start_rel u hcols _ hh hl
      have hd : ∀ x ∈ dec c ++ [82], 0 < x ∧ x < 128 ∧ x ∉ controlKeys := by
        intro x hx
        rw [List.mem_append] at hx
        rcases hx with hx | hx
        · have := dec_small c x hx
          refine ⟨by omega, by omega, ?_⟩
          simp [controlKeys]; omega
        · simp at hx; subst hx; decide
      have hascii : ∀ l : List Nat, (∀ x ∈ l, x < 128) → uniText l = l := by
        intro l hl
        induction l with
        | nil => rfl
        | cons x l ih => rw [uniText_cons, uni_ascii (hl x (by simp)), ih fun y hy => hl y (by simp [hy])]; rfl
      have htext := hascii (dec c ++ [82]) fun x hx => (hd x hx).2.1
      have hlen := dec_length (k := 5) (n := c) (by omega) (by omega)
      have hrun : EdRun u.comb (Able u.comb) (Ed.start h) ([27, 91, 48 + r, 59] :: (dec c ++ [82]).map fun c => [c])
          ⟨⟨[] ++ (dec c ++ [82]), []⟩, [], (recallable h).reverse, []⟩ := by
        refine .cons (.other4 (a := 48 + r) (b := 59) (by omega) (by omega) (by omega)) trivial (.edit .ignored) ?_
        exact edRun_ascii hmark _ [] hd (by rw [List.nil_append, htext]; simp [lineRoom]; omega)
      have hflat : ∀ l : List Nat, (l.map fun c => [c]).flatten = l := by
        intro l; induction l with
        | nil => rfl
        | cons x l ih => simp [ih]
      obtain ⟨l', g1, g2⟩ := reads_keys complete hrun [] (s := { s.prompt cols with
          queue := report r c, asked := s.asked, phase := .edit (lnStart (s.prompt cols).hist cols (promptLen ([] ++ []))) }) rfl hrel (by
        show report r c = _
        rw [List.append_nil, List.flatten_cons, hflat]
        have : dec r = [48 + r] := by rw [dec, if_pos hr]
        unfold report
        rw [this]
        rfl)
      refine ⟨_, l', ?_, reads_trans r1 g2, rfl, rfl, ?_⟩
      · simp only [St.run, St.step, ht]
        rw [if_pos ⟨by show 0 < s.asked + 1; omega, by omega, hc, hc2⟩]
        rfl
      · rw [g1.buf]
        show uniText ([] ++ (dec c ++ [82]) ++ []) = _
        rw [List.nil_append, List.append_nil, htext]
    · cases h1
  · cases h1

/-- TIMEOUT leaves the terminal without the gathering of lines, for all programs that are run later and after the end. -/
theorem C106_timeout (u : CharTables) (complete : List Nat → Reply) {m : Mode} {hist : List (List Nat)} {s s1 s2 : St}
    (h : CalmRun u complete (St.init m hist) s) (h1 : s.step u complete .poll = some s1) (h2 : CalmRun u complete s1 s2) :
    (s2.phase = .idle ∨ s2.phase = .off → s2.mode = { m with icanon := false }) ∧
      ∃ n, s2.seen = s.seen ++ List.replicate n { m with icanon := false } := by
  have h0 := modeOk_run (m := m) (s0 := St.init m hist) ⟨rfl, rfl⟩ h
  simp only [St.step] at h1
  split at h1
  · rename_i hp
    cases h1
    unfold ModeOk at h0
    rw [hp] at h0
    have hok : ModeOk { m with icanon := false } { s with mode := s.mode.poll, hold := [], buffered := false } := by
      unfold ModeOk
      dsimp only
      rw [hp]
      exact ⟨by rw [h0.1]; rfl, h0.2⟩
    refine ⟨fun hi => ?_, by have := seen_run hok h2; exact this⟩
    have h3 := modeOk_run hok h2
    unfold ModeOk at h3
    rcases hi with hi | hi
    · rw [hi] at h3; exact h3.1
    · rw [hi] at h3; exact h3
  · cases h1

/-- Ctrl-C while a key is waited for leaves the terminal without echo and without the gathering of lines, for all programs that are run later and after
the end. -/
theorem C106_break (u : CharTables) (complete : List Nat → Reply) {m : Mode} {hist : List (List Nat)} {s s1 s2 : St}
    (h : CalmRun u complete (St.init m hist) s) {old : Mode} {got : List Nat} (hk : s.phase = .key old got) (hm : m.isig = true)
    (h1 : s.step u complete (.press [3]) = some s1) (h2 : CalmRun u complete s1 s2) :
    (s2.phase = .idle ∨ s2.phase = .off → s2.mode = { m with icanon := false, echo := false }) ∧
      ∃ n, s2.seen = s.seen ++ List.replicate n { m with icanon := false, echo := false } := by
  have h0 := modeOk_run (m := m) (s0 := St.init m hist) ⟨rfl, rfl⟩ h
  unfold ModeOk at h0
  rw [hk] at h0
  simp only [St.step, St.typed, List.foldl_cons, List.foldl_nil, St.typed1] at h1
  rw [if_pos ⟨by rw [h0.2.1]; exact hm, trivial⟩] at h1
  unfold St.interrupt at h1
  rw [hk] at h1
  cases h1
  have hok : ModeOk { m with icanon := false, echo := false }
      { s with queue := [], hold := [], buffered := true, rawmode := false, phase := .idle, hist := [] } := by
    exact ⟨h0.2.1, rfl⟩
  refine ⟨fun hi => ?_, by have := seen_run hok h2; exact this⟩
  have h3 := modeOk_run hok h2
  unfold ModeOk at h3
  rcases hi with hi | hi
  · rw [hi] at h3; exact h3.1
  · rw [hi] at h3; exact h3

/-- Two keys pressed at a pause end the next one too, although no key is pressed then. -/
theorem C106_skipped (u : CharTables) (complete : List Nat → Reply) {s : St} (hi : s.phase = .idle) (hh : s.hold = []) (hq : s.queue = [])
    (hb : s.buffered = true) {a b : Nat} (ha : a ≠ 27 ∧ a ≠ 3 ∧ a ≠ 13) (hb2 : b ≠ 27 ∧ b ≠ 3 ∧ b ≠ 13) :
    ∃ s', s.run u complete [.pause, .press [a, b], .read, .pause, .read] = some s' ∧ s'.phase = .idle := by
  obtain ⟨mode, queue, asked, hold, buffered, orig, rawmode, phase, hist, lines, seen⟩ := s
  simp only at hi hh hq hb
  subst hi hh hq hb
  have hd : ∀ x, x ≠ 27 → keyDone [x] = true := by intro x hx; simp [keyDone, getKey, hx]
  refine ⟨_, by
    simp [St.run, St.step, St.typed, St.typed1, ha.2.1, hb2.2.1, ha.2.2, hb2.2.2, St.read, St.fgetc, hd a ha.1, hd b hb2.1, ahead]
    rfl, rfl⟩

/-- The escape key alone does not end a pause. -/
theorem C106_escape (u : CharTables) (complete : List Nat → Reply) {s : St} (hi : s.phase = .idle) (hh : s.hold = []) (hq : s.queue = []) :
    ∃ s1 old, s.run u complete [.pause, .press [27], .read] = some s1 ∧ s1.phase = .key old [27] ∧ s1.step u complete .read = none := by
  obtain ⟨mode, queue, asked, hold, buffered, orig, rawmode, phase, hist, lines, seen⟩ := s
  simp only at hi hh hq
  subst hi hh hq
  have hd : keyDone [27] = false := by decide
  cases buffered
  · refine ⟨_, mode, by
      simp [St.run, St.step, St.typed, St.typed1, St.read, St.fgetc, hd]
      rfl, rfl, rfl⟩
  · refine ⟨_, mode, by
      simp [St.run, St.step, St.typed, St.typed1, St.read, St.fgetc, hd]
      rfl, rfl, rfl⟩

/-! ### Examples -/

section
private def noTables : CharTables := ⟨fun _ => false, fun _ => false⟩
private def sane : Mode := { icanon := true, echo := true, isig := true, icrnl := true }

/-- Two lines, with a program in between. -/
example : ((St.init sane []).run noTables (fun _ => .none)
    [.prompt 80, .report 1 3, .read, .read, .read, .read, .read, .read, .type [97], .read, .type [13], .read, .program sane,
      .prompt 80, .report 2 3, .read, .read, .read, .read, .read, .read, .type [98], .type [13], .read, .read]).map (fun s => (s.lines, s.seen)) =
    some ([some [97], some [98]], [sane]) := by decide +kernel

/-- The second line, typed while the program runs, is lost. -/
example : ((St.init sane []).run noTables (fun _ => .none)
    [.prompt 80, .report 1 3, .read, .read, .read, .read, .read, .read, .type [97], .read, .type [13], .read, .type [98, 13], .program sane,
      .prompt 80, .report 2 3, .read, .read, .read, .read, .read, .read]).map (fun s => (s.lines, s.queue)) =
    some ([some [97]], []) := by decide +kernel

/-- A calm history. -/
example : ∃ s, CalmRun noTables (fun _ => .none) (St.init sane []) s ∧ s.phase = .off :=
  ⟨_, .step (.step .start trivial (e := .prompt 80) rfl) (e := .quit) (by rintro ⟨_, _, h⟩; cases h) rfl, rfl⟩

/-- Calm histories as in `C106_break` and `C106_timeout`. -/
example : ∃ s old got, CalmRun noTables (fun _ => .none) (St.init sane []) s ∧ s.phase = .key old got ∧
    ∃ s1, s.step noTables (fun _ => .none) (.press [3]) = some s1 ∧ s1.phase = .idle ∧ s1.mode.echo = false :=
  ⟨_, _, _, .step .start trivial (e := .pause) rfl, rfl, _, rfl, rfl, rfl⟩

example : ((St.init sane []).run noTables (fun _ => .none) [.poll, .program sane.poll, .quit]).map (fun s => (s.mode.icanon, s.seen)) =
    some (false, [sane.poll]) := by decide +kernel

/-- Keys waiting as in `C106_one_key`: an arrow and a letter. -/
example : ∃ s : St, s.phase = .idle ∧ PauseKey [27, 91, 65] ∧ pending s = [27, 91, 65] ++ [97] :=
  ⟨{ St.init sane [] with hold := [27, 91], queue := [65, 97] }, rfl, .arrow (by decide) (by decide) (by decide) (by decide) (by decide), rfl⟩

/-- A program that leaves another mode, as in `C106_left`. -/
example : ∃ s1, (St.init sane []).step noTables (fun _ => .none) (.program { sane with echo := false }) = some s1 ∧ s1.mode.echo = false :=
  ⟨_, rfl, rfl⟩

end

end PBat.Tty
