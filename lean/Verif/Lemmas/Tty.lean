import Verif.Spec.Tty
import Verif.Props.C76
/-
Lemmas on the terminal.
-/
namespace PBat.Tty
open PBat PBat.Spec PBat.Spec.Tty

theorem edRun_append {mark able e e1 e2 a b} (h1 : EdRun mark able e a e1) (h2 : EdRun mark able e1 b e2) : EdRun mark able e (a ++ b) e2 := by
  induction h1 with
  | nil => exact h2
  | cons hk ha hs _ ih => exact .cons hk ha hs (ih h2)

theorem edRun_split {mark able e e2} {a b : List (List Nat)} (h : EdRun mark able e (a ++ b) e2) :
    ∃ e1, EdRun mark able e a e1 ∧ EdRun mark able e1 b e2 := by
  induction a generalizing e with
  | nil => exact ⟨e, .nil, h⟩
  | cons x a ih =>
    cases h with
    | cons hk ha hs hr =>
      obtain ⟨e1, g1, g2⟩ := ih hr
      exact ⟨e1, .cons hk ha hs g1, g2⟩

theorem entered_split {mark h h'} {ks : List (List (List Nat))} {k ts} (he : Entered mark h (ks ++ [k]) ts h') :
    ∃ ts0 h1 e, Entered mark h ks ts0 h1 ∧ EdRun mark (Able mark) (Ed.start h1) k e ∧ ts = ts0 ++ [e.line.text] ∧
      h' = remember e.kept e.line.text := by
  induction ks generalizing h ts with
  | nil =>
    cases he with
    | cons hr hn =>
      cases hn
      exact ⟨[], _, _, .nil, hr, rfl, rfl⟩
  | cons x ks ih =>
    cases he with
    | cons hr hn =>
      obtain ⟨ts0, h1, e, g1, g2, g3, g4⟩ := ih hn
      exact ⟨_ :: ts0, h1, e, .cons hr g1, g2, by rw [g3]; rfl, g4⟩

theorem entered_length {mark h ks ts h'} (he : Entered mark h ks ts h') : ts.length = ks.length := by
  induction he with
  | nil => rfl
  | cons _ _ ih => simp [ih]

theorem entered_ok {u : CharTables} {h ks ts h'} (he : Entered u.comb h ks ts h') (hh : ∀ t ∈ h, LineOk u.comb t) (hl : h.length ≤ 100) :
    (∀ t ∈ h', LineOk u.comb t) ∧ h'.length ≤ 100 := by
  induction he with
  | nil => exact ⟨hh, hl⟩
  | cons hr _ ih =>
    obtain ⟨h1, h2⟩ := remember_ok hh hl hr
    exact ih h1 h2

/-- Enter ends the editing. -/
theorem lnKey_enter {u : CharTables} (complete : List Nat → Reply) {l : LnState} {e : Ed} (h1 : EdRel u l e) (rest : List Nat) :
    ∃ l3, lnKey u complete l (13 :: rest) = .ok (.done l3 rest) ∧ lnStr l3.buf = uniText e.line.text ∧
      histAdd l3.hist (lnStr l3.buf) = (remember e.kept e.line.text).map uniText := by
  obtain ⟨⟨a, b⟩, s, o, n⟩ := e
  have hsmall := h1.small
  have hhist := h1.hist
  dsimp only at hsmall hhist
  have hkept : l.hist.dropLast = ((o.reverse ++ [s] ++ n).dropLast).map uniText := by
    rw [hhist, List.map_dropLast]
  obtain ⟨l2, h4, h5⟩ := lnEnd_rel h1
  have h6 : ∃ l3, lnEnd u { l with hist := l.hist.dropLast } = .ok l3 ∧ l3.buf = l2.buf ∧
      l3.hist = l.hist.dropLast := by
    unfold lnEnd
    split
    · obtain ⟨l3, g1, g2, g3, g4, -⟩ := refresh_ok u
        { l with hist := l.hist.dropLast, pos := l.buf.length } (a ++ b) h1.buf h1.line.1
        h1.line.2.1 h1.cols
      refine ⟨l3, g1, ?_, g4⟩
      rw [g2, h5.buf, h1.buf]; simp
    · exact ⟨_, rfl, by rw [h5.buf, h1.buf]; simp, rfl⟩
  obtain ⟨l3, g1, g2, g3⟩ := h6
  have hb : l3.buf = uniText (a ++ b) := by rw [g2, h5.buf]; simp
  refine ⟨l3, by simp [lnKey, readCode_byte, Res.ok_bind, g1], by rw [hb, lnStr_uniText h1.line.1]; rfl, ?_⟩
  rw [hb, lnStr_uniText h1.line.1, g3, hkept,
    histAdd_text _ h1.line.1 (by simp only [List.length_dropLast, List.length_append,
      List.length_reverse, List.length_cons, List.length_nil]; omega)]
  · rfl
  · intro x hx
    have hx' := List.dropLast_subset _ hx
    simp only [List.append_assoc, List.mem_append, List.mem_reverse, List.mem_singleton] at hx'
    rcases hx' with hx' | hx' | hx'
    · exact (h1.entries x (by simp [hx'])).1
    · subst hx'; exact h1.stored.1
    · exact (h1.entries x (by simp [hx'])).1

/-- A key that is there in full is not waited for. -/
theorem keyNeed_le {k bs} (h : KeyBytes k bs) (r : List Nat) : keyNeed (bs ++ r) ≤ (bs ++ r).length := by
  have one : ∀ b r, b < 128 → b ≠ 27 → keyNeed (b :: r) = 1 := by
    intro b r hb h27
    rw [keyNeed.eq_def]
    split
    · rename_i h; cases h
    · rename_i h; cases h; exact absurd rfl h27
    · rename_i h; cases h
      rw [if_pos ((byte_and80 b (by omega)).2 hb), if_neg h27]
  cases h with
  | @char c hs hc =>
    have hpos := hs.1
    have hle := hs.2
    have h27 : c ≠ 27 := by intro hh; subst hh; simp [controlKeys] at hc
    unfold uni
    split
    · rw [List.singleton_append, one _ _ (by assumption) h27]; simp
    · split
      · have e : keyNeed ([0xC0 + c / 64, 0x80 + c % 64] ++ r) = 2 := by
          rw [keyNeed.eq_def]
          split
          · rename_i h; cases h
          · rename_i h; simp only [List.cons_append, List.cons.injEq] at h; omega
          · rename_i h; simp only [List.cons_append, List.cons.injEq] at h
            obtain ⟨rfl, -⟩ := h
            rw [if_neg (by rw [byte_and80 _ (by omega)]; omega), if_pos ((byte_andE0 _ (by omega)).2 (by omega))]
        rw [e]; simp
      · split
        · have e : keyNeed ([0xE0 + c / 4096, 0x80 + c / 64 % 64, 0x80 + c % 64] ++ r) = 3 := by
            rw [keyNeed.eq_def]
            split
            · rename_i h; cases h
            · rename_i h; simp only [List.cons_append, List.cons.injEq] at h; omega
            · rename_i h; simp only [List.cons_append, List.cons.injEq] at h
              obtain ⟨rfl, -⟩ := h
              rw [if_neg (by rw [byte_and80 _ (by omega)]; omega), if_neg (by rw [byte_andE0 _ (by omega)]; omega),
                if_pos ((byte_andF0 _ (by omega)).2 (by omega))]
          rw [e]; simp
        · have e : keyNeed ([0xF0 + c / 262144, 0x80 + c / 4096 % 64, 0x80 + c / 64 % 64, 0x80 + c % 64] ++ r) = 4 := by
            rw [keyNeed.eq_def]
            split
            · rename_i h; cases h
            · rename_i h; simp only [List.cons_append, List.cons.injEq] at h; omega
            · rename_i h; simp only [List.cons_append, List.cons.injEq] at h
              obtain ⟨rfl, -⟩ := h
              rw [if_neg (by rw [byte_and80 _ (by omega)]; omega), if_neg (by rw [byte_andE0 _ (by omega)]; omega),
                if_neg (by rw [byte_andF0 _ (by omega)]; omega), if_pos ((byte_andF8 _ (by omega)).2 (by omega))]
          rw [e]; simp
  | other1 ha hb =>
    rw [List.cons_append, List.cons_append, List.cons_append, List.nil_append, keyNeed.eq_def]
    split
    · rename_i h; cases h
    · rename_i h; cases h; exact absurd rfl ha
    · rename_i h; cases h
      rw [if_pos (by decide), if_pos rfl]; simp
  | other2 _ hb => simp [keyNeed]; split <;> omega
  | other4 ha hb _ => simp [keyNeed]; split <;> omega
  | other3 => simp [keyNeed]; try decide
  | _ => first | (rw [List.cons_append, one _ _ (by decide) (by decide)]; simp; done) | (simp [keyNeed]; try decide)

/-! ### Typing -/

theorem typed_plain {s : St} (h1 : s.mode.isig = false) (h2 : s.mode.icrnl = false) (bs : List Nat) :
    s.typed bs = { s with queue := s.queue ++ bs } := by
  unfold St.typed
  induction bs generalizing s with
  | nil => simp
  | cons b bs ih =>
    have e : s.typed1 b = { s with queue := s.queue ++ [b] } := by
      unfold St.typed1
      rw [if_neg (by simp [h1])]
      simp [h2]
    rw [List.foldl_cons, e, ih (s := { s with queue := s.queue ++ [b] }) h1 h2]
    simp

/-- Keys without Ctrl-C only join the queue, somehow. -/
theorem typed_quiet (s : St) (bs : List Nat) (h : 3 ∉ bs) : ∃ q, s.typed bs = { s with queue := q } := by
  unfold St.typed
  induction bs generalizing s with
  | nil => exact ⟨s.queue, rfl⟩
  | cons b bs ih =>
    simp only [List.mem_cons, not_or] at h
    have e : s.typed1 b = { s with queue := s.queue ++ [if s.mode.icrnl = true ∧ b = 13 then 10 else b] } := by
      unfold St.typed1
      rw [if_neg (fun hh => h.1 hh.2.symm)]
    rw [List.foldl_cons, e]
    obtain ⟨q, hq⟩ := ih _ h.2
    exact ⟨q, by rw [hq]⟩

/-! ### The report of the cursor -/

theorem dec_small (n : Nat) : ∀ c ∈ dec n, 48 ≤ c ∧ c ≤ 57 := by
  induction n using Nat.strongRecOn with
  | _ n ih =>
    rw [dec]
    split
    · intro c hc; simp at hc; omega
    · intro c hc
      rw [List.mem_append] at hc
      rcases hc with hc | hc
      · exact ih (n / 10) (by omega) c hc
      · simp at hc; omega

theorem dec_ne (n : Nat) : dec n ≠ [] := by
  rw [dec]; split <;> simp

theorem dec_value (n : Nat) : (dec n).foldl (fun n c => 10 * n + (c - 48)) 0 = n := by
  induction n using Nat.strongRecOn with
  | _ n ih =>
    rw [dec]
    split
    · simp
    · rw [List.foldl_append, ih (n / 10) (by omega)]
      simp; omega

theorem dec_length {k n : Nat} (h : n < 10 ^ k) (hk : 0 < k) : (dec n).length ≤ k := by
  induction k generalizing n with
  | zero => omega
  | succ k ih =>
    rw [dec]
    split
    · simp
    · rename_i hn
      have hk' : 0 < k := by
        rcases Nat.eq_zero_or_pos k with rfl | h'
        · simp at h; omega
        · exact h'
      have := ih (n := n / 10) (by rw [Nat.pow_succ] at h; omega) hk'
      simp; omega

theorem report_length {r c : Nat} (hr : r < 65536) (hc : c < 65536) : (report r c).length ≤ 14 := by
  have h1 := dec_length (k := 5) (n := r) (by omega) (by omega)
  have h2 := dec_length (k := 5) (n := c) (by omega) (by omega)
  simp [report]; omega

theorem takeWhile_digits (n : Nat) (r : List Nat) (hr : ∀ c ∈ r.head?, ¬ (48 ≤ c ∧ c ≤ 57)) :
    (dec n ++ r).takeWhile (fun c => decide (48 ≤ c ∧ c ≤ 57)) = dec n := by
  have h := dec_small n
  generalize dec n = d at h
  induction d with
  | nil =>
    cases r with
    | nil => rfl
    | cons x r =>
      have := hr x (by simp)
      rw [List.nil_append, List.takeWhile_cons, decide_eq_false this]
      rfl
  | cons x d ih =>
    have hx := h x (by simp)
    rw [List.cons_append, List.takeWhile_cons, decide_eq_true hx]
    simp only [if_true]
    rw [ih fun c hc => h c (by simp [hc])]

theorem scanInt_dec (n : Nat) (r : List Nat) (hr : ∀ c ∈ r.head?, ¬ (48 ≤ c ∧ c ≤ 57)) : scanInt (dec n ++ r) = some ((n : Int), r) := by
  obtain ⟨x, d, hd⟩ : ∃ x d, dec n = x :: d := by
    cases h : dec n with
    | nil => exact absurd h (dec_ne n)
    | cons x d => exact ⟨x, d, rfl⟩
  have hx := dec_small n x (by rw [hd]; simp)
  unfold scanInt
  have e1 : (dec n ++ r).dropWhile (fun c => decide (c = 32 ∨ 9 ≤ c ∧ c ≤ 13)) = dec n ++ r := by
    rw [hd, List.cons_append, List.dropWhile_cons, decide_eq_false (by omega)]
    rfl
  rw [e1]
  have e2 : sign (dec n ++ r) = (false, dec n ++ r) := by
    rw [hd, List.cons_append, sign.eq_def]
    split
    · rename_i h; cases h; omega
    · rename_i h; cases h; omega
    · rfl
  dsimp only
  rw [e2]
  dsimp only
  rw [takeWhile_digits n r hr, if_neg (dec_ne n), dec_value, List.drop_left]
  rfl

/-- The report gives the column. -/
theorem promptLen_report (r c : Nat) (hc : 0 < c) (hc2 : c < 65536) : promptLen (27 :: 91 :: dec r ++ 59 :: dec c) = c - 1 := by
  have e : cursorColumn (27 :: 91 :: dec r ++ 59 :: dec c) = c := by
    show (match scanInt (dec r ++ 59 :: dec c) with
      | some (_, 59 :: r) => (match scanInt r with | some (c, _) => c | none => -1)
      | _ => -1) = (c : Int)
    rw [scanInt_dec r (59 :: dec c) (by intro x hx; simp at hx; omega)]
    show (match scanInt (dec c) with | some (c, _) => c | none => -1) = (c : Int)
    have := scanInt_dec c [] (by simp)
    rw [List.append_nil] at this
    rw [this]
  unfold promptLen
  rw [e]
  omega

theorem report_no_end (r c : Nat) : ∀ x ∈ 27 :: 91 :: dec r ++ 59 :: dec c, x ≠ 82 := by
  intro x hx
  simp only [List.cons_append, List.mem_cons, List.mem_append] at hx
  rcases hx with rfl | rfl | hx | rfl | hx
  · omega
  · omega
  · have := dec_small r x hx; omega
  · omega
  · have := dec_small c x hx; omega

theorem report_cut {r c : Nat} {buf q : List Nat} (h : buf ++ 82 :: q = report r c) : buf = 27 :: 91 :: dec r ++ 59 :: dec c ∧ q = [] := by
  have h' : buf ++ 82 :: q = (27 :: 91 :: dec r ++ 59 :: dec c) ++ [82] := by rw [h]; rfl
  have hno := report_no_end r c
  generalize (27 :: 91 :: dec r ++ 59 :: dec c : List Nat) = R at *
  clear h
  induction buf generalizing R with
  | nil =>
    cases R with
    | nil => simpa using h'
    | cons x R =>
      simp only [List.nil_append, List.cons_append, List.cons.injEq] at h'
      exact absurd h'.1.symm (hno x (by simp))
  | cons y buf ih =>
    cases R with
    | nil => simp at h'
    | cons x R =>
      simp only [List.cons_append, List.cons.injEq] at h'
      obtain ⟨h1, h2⟩ := ih (R := R) h'.2 fun z hz => hno z (by simp [hz])
      exact ⟨by rw [h'.1, h1], h2⟩

/-! ### Patient users -/

/-- Lines as they are handed over. -/
def texts (ts : List (List Nat)) : List (Option (List Nat)) := ts.map fun t => some (uniText t)

/-- What holds while a patient user types: `ts` lines entered, `h1` the history after them, `cur` the keys typed since, `e` the line they make. -/
inductive Good (u : CharTables) (ts h1 : List (List Nat)) (cur : List (List Nat)) (e : Ed) (s : St) : Prop
  | idle : (s.phase = .idle ∨ ∃ old got, s.phase = .key old got) → s.lines = texts ts → s.hist = h1.map uniText → s.asked = 0 → cur = [] →
      Good u ts h1 cur e s
  | ask0 {cols} : s.phase = .ask cols [] → 0 < cols → s.lines = texts ts → s.hist = h1.map uniText → s.asked = 1 → cur = [] →
      s.queue = [] → s.mode = s.orig.raw → s.rawmode = true → Good u ts h1 cur e s
  | ask1 {cols buf r c} : s.phase = .ask cols buf → 0 < cols → s.lines = texts ts → s.hist = h1.map uniText → s.asked = 0 → cur = [] →
      buf ++ s.queue = report r c → r < 65536 → 0 < c → c < 65536 → s.queue ≠ [] → s.mode = s.orig.raw → s.rawmode = true → Good u ts h1 cur e s
  | edit {l e0 pend} : s.phase = .edit l → s.asked = 0 → s.lines = texts ts → EdRel u l e0 →
      EdRun u.comb (Able u.comb) e0 pend e → s.queue = pend.flatten → s.mode = s.orig.raw → s.rawmode = true → Good u ts h1 cur e s
  | entered {l e0 e1 pend ts0} : s.phase = .edit l → s.asked = 0 → s.lines = texts ts0 → ts = ts0 ++ [e1.line.text] → EdRel u l e0 →
      EdRun u.comb (Able u.comb) e0 pend e1 → s.queue = pend.flatten ++ [13] → h1 = remember e1.kept e1.line.text → cur = [] →
      s.mode = s.orig.raw → s.rawmode = true → Good u ts h1 cur e s
  | off : s.phase = .off → Good u ts h1 cur e s

theorem cooked_raw {s : St} (h : s.rawmode = true) : s.cooked = { s with mode := s.orig, queue := [], rawmode := false } := by
  unfold St.cooked; rw [if_pos h]

theorem lines_cooked (s : St) : s.cooked.lines = s.lines := by unfold St.cooked; split <;> rfl

theorem asked_cooked (s : St) : s.cooked.asked = s.asked := by unfold St.cooked; split <;> rfl

/-- The editor takes a key. -/
theorem read_key {u : CharTables} (complete : List Nat → Reply) {s : St} {l : LnState} {e0 e1 : Ed} {k : Key} {bs rest : List Nat}
    (hp : s.phase = .edit l) (hrel : EdRel u l e0) (hk : KeyBytes k bs) (ha : Able u.comb e0 k) (hs : EdStep u.comb e0 k e1)
    (hq : s.queue = bs ++ rest) : ∃ l', EdRel u l' e1 ∧ s.read u complete = some { s with queue := rest, phase := .edit l' } := by
  obtain ⟨⟨l1, g1, g2⟩, g3⟩ := keyFun_step hrel ha hs (typed_char hk)
  refine ⟨l1, g2, ?_⟩
  have hn := keyNeed_le hk rest
  unfold St.read
  rw [hp]
  dsimp only
  rw [hq, if_neg (by omega), lnKey_typed u complete hk l _ g3, g1]
  rfl

/-- The editor takes Enter. -/
theorem read_enter {u : CharTables} (complete : List Nat → Reply) {s : St} {l : LnState} {e : Ed} {rest : List Nat}
    (hp : s.phase = .edit l) (hrel : EdRel u l e) (hq : s.queue = 13 :: rest) :
    s.read u complete = some (s.leave (some (uniText e.line.text)) ((remember e.kept e.line.text).map uniText)) := by
  obtain ⟨l3, g1, g2, g3⟩ := lnKey_enter complete hrel rest
  unfold St.read
  rw [hp]
  dsimp only
  have hn : keyNeed (13 :: rest) = 1 := by
    rw [keyNeed.eq_def]
    split
    · rename_i h; cases h
    · rename_i h; cases h
    · rename_i h; cases h; decide
  rw [hq, hn, if_neg (by simp), g1]
  dsimp only
  rw [g3, g2]

theorem flatten_key {mark able e0 e} {pend : List (List Nat)} (h : EdRun mark able e0 pend e) (hq : pend.flatten = []) : pend = [] := by
  cases h with
  | nil => rfl
  | cons hk =>
    rw [List.flatten_cons] at hq
    exact absurd (List.append_eq_nil_iff.1 hq).1 (typed_ne hk)

theorem good_read {u : CharTables} {complete : List Nat → Reply} {ts h1 : List (List Nat)} {cur : List (List Nat)} {e : Ed} {s s' : St}
    (hg : Good u ts h1 cur e s) (hr : EdRun u.comb (Able u.comb) (Ed.start h1) cur e) (hok : ∀ t ∈ h1, LineOk u.comb t)
    (hlen : h1.length ≤ 100) (hs : s.read u complete = some s') : Good u ts h1 cur e s' := by
  cases hg with
  | idle hp a1 a2 a3 a4 =>
    rcases hp with hp | ⟨old, got, hp⟩
    · unfold St.read at hs; rw [hp] at hs; cases hs
    · unfold St.read at hs
      rw [hp] at hs
      dsimp only at hs
      cases hf : s.fgetc with
      | none => rw [hf] at hs; cases hs
      | some p =>
        obtain ⟨b, s1⟩ := p
        have hs1 : s1.lines = s.lines ∧ s1.hist = s.hist ∧ s1.asked = s.asked := by
          unfold St.fgetc at hf
          split at hf
          · cases hf; exact ⟨rfl, rfl, rfl⟩
          · split at hf
            · cases hf
            · split at hf
              · cases hf; exact ⟨rfl, rfl, rfl⟩
              · cases hf; exact ⟨rfl, rfl, rfl⟩
        rw [hf] at hs
        dsimp only at hs
        split at hs
        · cases hs
          exact .idle (.inl rfl) (hs1.1.trans a1) (hs1.2.1.trans a2) (hs1.2.2.trans a3) a4
        · cases hs
          exact .idle (.inr ⟨_, _, rfl⟩) (hs1.1.trans a1) (hs1.2.1.trans a2) (hs1.2.2.trans a3) a4
  | ask0 hp _ _ _ _ _ hq _ _ =>
    unfold St.read at hs
    rw [hp] at hs
    dsimp only at hs
    rw [hq] at hs
    cases hs
  | @ask1 cols buf r c hp hc a1 a2 a3 a4 hrep b1 b2 b3 hq hm hraw =>
    unfold St.read at hs
    rw [hp] at hs
    dsimp only at hs
    cases hqq : s.queue with
    | nil => exact absurd hqq hq
    | cons b q =>
      rw [hqq] at hs hrep
      dsimp only at hs
      split at hs
      · rename_i hb
        subst hb
        obtain ⟨e1, e2⟩ := report_cut hrep
        cases hs
        subst a4
        cases hr
        exact .edit rfl a3 a1 (by rw [a2]; exact start_rel u hc _ hok hlen) .nil (by simp [e2]) hm hraw
      · rename_i hb
        have hl := report_length b1 b3
        rw [← hrep] at hl
        simp only [List.length_append, List.length_cons] at hl
        rw [if_neg (by omega)] at hs
        cases hs
        refine .ask1 rfl hc a1 a2 a3 a4 (r := r) (c := c) (by rw [← hrep]; simp) b1 b2 b3 ?_ hm hraw
        intro hq0
        dsimp only at hq0
        subst hq0
        have h2 : (buf ++ [b]).getLast? = ((27 :: 91 :: dec r ++ 59 :: dec c) ++ [82]).getLast? := by rw [hrep]; rfl
        rw [List.getLast?_append, List.getLast?_append] at h2
        simp at h2
        exact hb h2
  | @edit l e0 pend hp a1 a2 hrel hrun hq hm hraw =>
    cases hrun with
    | nil =>
      unfold St.read at hs
      rw [hp] at hs
      dsimp only at hs
      rw [hq] at hs
      simp [keyNeed] at hs
    | cons hk ha hst hrest =>
      rw [List.flatten_cons] at hq
      obtain ⟨l', g1, g2⟩ := read_key complete hp hrel hk ha hst hq
      rw [g2] at hs
      cases hs
      exact .edit rfl a1 a2 g1 hrest rfl hm hraw
  | @entered l e0 e1 pend ts0 hp a1 a2 a3 hrel hrun hq hh hcur hm hraw =>
    cases hrun with
    | nil =>
      rw [List.flatten_nil, List.nil_append] at hq
      rw [read_enter complete hp hrel hq] at hs
      cases hs
      refine .idle (.inl rfl) ?_ ?_ ?_ hcur
      · show s.lines ++ [_] = _
        rw [a2, a3]; simp [texts]
      · show _ = _; rw [hh]; rfl
      · exact (asked_cooked s).trans a1
    | cons hk ha hst hrest =>
      rw [List.flatten_cons, List.append_assoc] at hq
      obtain ⟨l', g1, g2⟩ := read_key complete hp hrel hk ha hst hq
      rw [g2] at hs
      cases hs
      exact .entered rfl a1 a2 a3 g1 hrest rfl hh hcur hm hraw
  | off hp => unfold St.read at hs; rw [hp] at hs; cases hs

theorem good_step {u : CharTables} {complete : List Nat → Reply} {ts h1 : List (List Nat)} {cur : List (List Nat)} {e : Ed} {s s' : St}
    (hg : Good u ts h1 cur e s) (hr : EdRun u.comb (Able u.comb) (Ed.start h1) cur e) (hok : ∀ t ∈ h1, LineOk u.comb t)
    (hlen : h1.length ≤ 100) {ev : Ev} (n1 : ∀ bs, ev ≠ .type bs) (n2 : ∀ bs, ev ≠ .press bs) (hs : s.step u complete ev = some s') :
    Good u ts h1 cur e s' := by
  have idle_only : ∀ {P : Prop}, s.phase = .idle → (s.lines = texts ts → s.hist = h1.map uniText → s.asked = 0 → cur = [] → P) → P := by
    intro P hp k
    cases hg with
    | idle _ a1 a2 a3 a4 => exact k a1 a2 a3 a4
    | ask0 h => rw [hp] at h; cases h
    | ask1 h => rw [hp] at h; cases h
    | edit h => rw [hp] at h; cases h
    | entered h => rw [hp] at h; cases h
    | off h => rw [hp] at h; cases h
  cases ev with
  | type bs => exact absurd rfl (n1 bs)
  | press bs => exact absurd rfl (n2 bs)
  | report r c =>
    simp only [St.step] at hs
    split at hs
    · rename_i hh
      cases hs
      cases hg with
      | idle _ _ _ a3 _ => omega
      | @ask0 cols hp hc a1 a2 a3 a4 hq hm hraw =>
        exact .ask1 hp hc a1 a2 (by show s.asked - 1 = 0; omega) a4 (r := r) (c := c) (by simp [hq]) hh.2.1 hh.2.2.1 hh.2.2.2
          (by simp [report]) hm hraw
      | ask1 _ _ _ _ a3 => omega
      | edit _ a => omega
      | entered _ a => omega
      | off hp => exact .off hp
    · cases hs
  | prompt cols =>
    simp only [St.step] at hs
    split at hs
    · rename_i hp
      split at hs
      · rename_i hc
        cases hs
        exact idle_only hp fun a1 a2 a3 a4 => .ask0 rfl hc a1 a2 (by show s.asked + 1 = 1; omega) a4 rfl rfl rfl
      · cases hs
    · cases hs
  | read => exact good_read hg hr hok hlen hs
  | pause =>
    simp only [St.step] at hs
    split at hs
    · rename_i hp
      cases hs
      exact idle_only hp fun a1 a2 a3 a4 => .idle (.inr ⟨_, _, rfl⟩) a1 a2 a3 a4
    · cases hs
  | poll =>
    simp only [St.step] at hs
    split at hs
    · rename_i hp
      cases hs
      exact idle_only hp fun a1 a2 a3 a4 => .idle (.inl hp) a1 a2 a3 a4
    · cases hs
  | program m =>
    simp only [St.step] at hs
    split at hs
    · rename_i hp
      cases hs
      exact idle_only hp fun a1 a2 a3 a4 => .idle (.inl hp) a1 a2 a3 a4
    · cases hs
  | quit =>
    simp only [St.step] at hs
    split at hs
    · cases hs
    · cases hs
    · cases hs; exact .off rfl

/-- The invariant holds for every history of a patient user. -/
theorem patient_good {u : CharTables} {complete : List Nat → Reply} {m : Mode} {h : List (List Nat)} (hh : ∀ t ∈ h, LineOk u.comb t)
    (hl : h.length ≤ 100) {entered : List (List (List Nat))} {now : List (List Nat)} {s : St}
    (hp : Patient u complete (St.init m (h.map uniText)) entered now s) {ts h1 : List (List Nat)} {e : Ed}
    (he : Entered u.comb h entered ts h1) (hr : EdRun u.comb (Able u.comb) (Ed.start h1) now e) : Good u ts h1 now e s := by
  induction hp generalizing ts h1 e with
  | start =>
    cases he
    exact .idle (.inl rfl) rfl rfl rfl rfl
  | @type entered now s l bs s' _ hph hn hs ih =>
    obtain ⟨e1, r1, r2⟩ := edRun_split hr
    have hg := ih he r1
    simp only [St.step] at hs
    cases hs
    have hlen := entered_length he
    cases hg with
    | idle hi => rcases hi with hi | ⟨_, _, hi⟩ <;> (rw [hph] at hi; cases hi)
    | ask0 hi => rw [hph] at hi; cases hi
    | ask1 hi => rw [hph] at hi; cases hi
    | @edit l e0 pend hp' a1 a2 hrel hrun hq hm hraw =>
      rw [typed_plain (by rw [hm]; rfl) (by rw [hm]; rfl)]
      exact .edit hp' a1 a2 hrel (edRun_append hrun r2) (by simp [hq]) hm hraw
    | @entered l e0 e1 pend ts0 hp' a1 a2 a3 =>
      rw [a2] at hn
      rw [a3] at hlen
      simp [texts] at hn hlen
      omega
    | off hi => rw [hph] at hi; cases hi
  | @enter entered now s l s' _ hph hn hs ih =>
    obtain ⟨ts0, h0, e1, g1, g2, g3, g4⟩ := entered_split he
    have hg := ih g1 g2
    simp only [St.step] at hs
    cases hs
    have hlen := entered_length g1
    cases hr
    cases hg with
    | idle hi => rcases hi with hi | ⟨_, _, hi⟩ <;> (rw [hph] at hi; cases hi)
    | ask0 hi => rw [hph] at hi; cases hi
    | ask1 hi => rw [hph] at hi; cases hi
    | @edit l e0 pend hp' a1 a2 hrel hrun hq hm hraw =>
      rw [typed_plain (by rw [hm]; rfl) (by rw [hm]; rfl)]
      exact .entered hp' a1 a2 g3 hrel hrun (by simp [hq]) g4 rfl hm hraw
    | @entered l e0 e1 pend ts0 hp' a1 a2 a3 =>
      rw [a2] at hn
      rw [a3] at hlen
      simp [texts] at hn hlen
      omega
    | off hi => rw [hph] at hi; cases hi
  | @press entered now s bs s' _ hph h3 hs ih =>
    have hg := ih he hr
    simp only [St.step] at hs
    cases hs
    obtain ⟨q, hq⟩ := typed_quiet s bs h3
    rw [hq]
    cases hg with
    | idle hi a1 a2 a3 a4 => exact .idle hi a1 a2 a3 a4
    | ask0 hi => rcases hph with h | ⟨_, _, h⟩ <;> (rw [hi] at h; cases h)
    | ask1 hi => rcases hph with h | ⟨_, _, h⟩ <;> (rw [hi] at h; cases h)
    | edit hi => rcases hph with h | ⟨_, _, h⟩ <;> (rw [hi] at h; cases h)
    | entered hi => rcases hph with h | ⟨_, _, h⟩ <;> (rw [hi] at h; cases h)
    | off hi => exact .off hi
  | other _ n1 n2 hs ih =>
    obtain ⟨o1, o2⟩ := entered_ok he hh hl
    exact good_step (ih he hr) hr o1 o2 n1 n2 hs

/-- The editor takes all keys that wait. -/
theorem reads_keys {u : CharTables} (complete : List Nat → Reply) {e0 e : Ed} {pend : List (List Nat)}
    (hrun : EdRun u.comb (Able u.comb) e0 pend e) (rest : List Nat) {s : St} {l : LnState} (hp : s.phase = .edit l) (hrel : EdRel u l e0)
    (hq : s.queue = pend.flatten ++ rest) : ∃ l', EdRel u l' e ∧ Reads u complete s { s with queue := rest, phase := .edit l' } := by
  induction hrun generalizing s l with
  | nil =>
    refine ⟨l, hrel, ?_⟩
    have : s = { s with queue := rest, phase := .edit l } := by
      obtain ⟨a, b, c, d, f, g, hh, i, j, k, n⟩ := s
      simp_all
    rw [← this]
    exact .refl
  | cons hk ha hst _ ih =>
    rw [List.flatten_cons, List.append_assoc] at hq
    obtain ⟨l', g1, g2⟩ := read_key complete hp hrel hk ha hst hq
    obtain ⟨l2, g3, g4⟩ := ih (s := { s with queue := _, phase := .edit l' }) rfl g1 rfl
    exact ⟨l2, g3, .step g2 g4⟩

theorem reads_trans {u : CharTables} {complete : List Nat → Reply} {a b c : St} (h1 : Reads u complete a b) (h2 : Reads u complete b c) :
    Reads u complete a c := by
  induction h1 with
  | refl => exact h2
  | step h _ ih => exact .step h (ih h2)

/-- The bytes before the end of the report are gathered. -/
theorem reads_ask {u : CharTables} (complete : List Nat → Reply) {s : St} {cols : Nat} {buf a rest : List Nat} (hp : s.phase = .ask cols buf)
    (hq : s.queue = a ++ 82 :: rest) (ha : ∀ x ∈ a, x ≠ 82) (hl : (buf ++ a).length < 31) :
    Reads u complete s { s with queue := rest, phase := .edit (lnStart s.hist cols (promptLen (buf ++ a))) } := by
  induction a generalizing s buf with
  | nil =>
    refine .step ?_ .refl
    show s.read u complete = _
    unfold St.read
    rw [hp]
    dsimp only
    rw [hq]
    simp
  | cons x a ih =>
    have hx := ha x (by simp)
    have h1 : s.step u complete .read = some { s with queue := a ++ 82 :: rest, phase := .ask cols (buf ++ [x]) } := by
      show s.read u complete = _
      unfold St.read
      rw [hp]
      dsimp only
      rw [hq]
      simp only [List.cons_append]
      rw [if_neg hx, if_neg (by simp at hl; omega)]
    have h2 := ih (s := { s with queue := a ++ 82 :: rest, phase := .ask cols (buf ++ [x]) }) (buf := buf ++ [x]) rfl rfl
      (fun y hy => ha y (by simp [hy])) (by simpa using hl)
    rw [List.append_assoc, List.singleton_append] at h2
    exact .step h1 h2

/-! ### The modes -/

/-- What holds of the modes of a terminal that was in the mode `m`. -/
def ModeOk (m : Mode) (s : St) : Prop :=
  match s.phase with
  | .idle => s.mode = m ∧ s.rawmode = false
  | .ask _ _ => s.orig = m ∧ s.mode = m.raw ∧ s.rawmode = true
  | .edit _ => s.orig = m ∧ s.mode = m.raw ∧ s.rawmode = true
  | .key old _ => old = m ∧ s.mode = m.single ∧ s.rawmode = false
  | .off => s.mode = m
  | .undef => True

theorem modeOk_queue {m : Mode} {s : St} (h : ModeOk m s) (q : List Nat) : ModeOk m { s with queue := q } := h

theorem modeOk_typed {m : Mode} {s : St} (h : ModeOk m s) (bs : List Nat) (hc : (∃ old got, s.phase = .key old got) → 3 ∉ bs) :
    ModeOk m (s.typed bs) := by
  unfold St.typed
  induction bs generalizing s with
  | nil => exact h
  | cons b bs ih =>
    rw [List.foldl_cons]
    unfold St.typed1
    split
    · rename_i hb
      obtain ⟨hsig, rfl⟩ := hb
      have key : ModeOk m s.interrupt ∧ ((∃ old got, s.interrupt.phase = .key old got) → 3 ∉ bs) := by
        unfold St.interrupt ModeOk at *
        cases hp : s.phase with
        | idle => rw [hp] at h; exact ⟨⟨h.1, rfl⟩, by simp⟩
        | ask _ _ => rw [hp] at h; rw [h.2.1] at hsig; cases hsig
        | edit _ => rw [hp] at h; rw [h.2.1] at hsig; cases hsig
        | key old got => exact absurd (hc ⟨old, got, hp⟩) (by simp)
        | off => rw [hp] at h; dsimp only; exact ⟨h, by simp⟩
        | undef => dsimp only; rw [hp]; simp
      exact ih key.1 key.2
    · exact ih (s := { s with queue := _ }) h (fun hh => fun hb => hc hh (List.mem_cons_of_mem _ hb))

theorem modeOk_step {u : CharTables} {complete : List Nat → Reply} {m : Mode} {s s' : St} (h : ModeOk m s) {e : Ev} (hc : Calm s e)
    (hs : s.step u complete e = some s') : ModeOk m s' := by
  cases e with
  | type bs => simp only [St.step] at hs; cases hs; exact modeOk_typed h bs hc
  | press bs => simp only [St.step] at hs; cases hs; exact modeOk_typed h bs hc
  | report r c =>
    simp only [St.step] at hs
    split at hs
    · cases hs; exact h
    · cases hs
  | prompt cols =>
    simp only [St.step] at hs
    split at hs
    · rename_i hp
      split at hs
      · cases hs
        unfold ModeOk at h
        rw [hp] at h
        exact ⟨h.1, by show s.mode.raw = _; rw [h.1], rfl⟩
      · cases hs
    · cases hs
  | read =>
    simp only [St.step] at hs
    unfold St.read at hs
    unfold ModeOk at h
    cases hp : s.phase with
    | idle => rw [hp] at hs; cases hs
    | off => rw [hp] at hs; cases hs
    | undef => rw [hp] at hs; cases hs
    | ask cols buf =>
      rw [hp] at hs h
      dsimp only at hs
      split at hs
      · cases hs
      · split at hs
        · cases hs; exact h
        · split at hs
          · cases hs; exact h
          · cases hs; exact h
    | edit l =>
      rw [hp] at hs h
      dsimp only at hs
      have hleave : ∀ line hist, ModeOk m (s.leave line hist) := by
        intro line hist
        unfold St.leave
        rw [cooked_raw h.2.2]
        exact ⟨h.1, rfl⟩
      split at hs
      · cases hs
      · split at hs
        · cases hs; exact h
        · cases hs; exact hleave _ _
        · cases hs; exact hleave _ _
        · cases hs; trivial
    | key old got =>
      rw [hp] at hs h
      dsimp only at hs
      cases hf : s.fgetc with
      | none => rw [hf] at hs; cases hs
      | some p =>
        obtain ⟨b, s1⟩ := p
        have hs1 : s1.mode = s.mode ∧ s1.rawmode = s.rawmode := by
          unfold St.fgetc at hf
          split at hf
          · cases hf; exact ⟨rfl, rfl⟩
          · split at hf
            · cases hf
            · split at hf
              · cases hf; exact ⟨rfl, rfl⟩
              · cases hf; exact ⟨rfl, rfl⟩
        rw [hf] at hs
        dsimp only at hs
        split at hs
        · cases hs; exact ⟨h.1, hs1.2.trans h.2.2⟩
        · cases hs; exact ⟨h.1, hs1.1.trans h.2.1, hs1.2.trans h.2.2⟩
  | pause =>
    simp only [St.step] at hs
    split at hs
    · rename_i hp
      cases hs
      unfold ModeOk at h
      rw [hp] at h
      exact ⟨h.1, by show s.mode.single = _; rw [h.1], h.2⟩
    · cases hs
  | poll => exact hc.elim
  | program m' =>
    simp only [St.step] at hs
    split at hs
    · rename_i hp
      cases hs
      have hc' : m' = s.mode := hc
      subst hc'
      exact h
    · cases hs
  | quit =>
    simp only [St.step] at hs
    unfold ModeOk at h
    split at hs
    · cases hs
    · cases hs
    · rename_i hn1 hn2
      cases hs
      unfold ModeOk
      dsimp only
      cases hp : s.phase with
      | idle => rw [hp] at h; unfold St.cooked; rw [if_neg (by rw [h.2]; simp)]; exact h.1
      | ask _ _ => rw [hp] at h; rw [cooked_raw h.2.2]; exact h.1
      | edit _ => rw [hp] at h; rw [cooked_raw h.2.2]; exact h.1
      | key old got => exact absurd ⟨old, got, hp⟩ hc
      | off => exact absurd hp hn1
      | undef => exact absurd hp hn2

theorem modeOk_run {u : CharTables} {complete : List Nat → Reply} {m : Mode} {s0 s : St} (h : ModeOk m s0) (hr : CalmRun u complete s0 s) :
    ModeOk m s := by
  induction hr with
  | start => exact h
  | step _ hc hs ih => exact modeOk_step ih hc hs

/-- The modes programs find. -/
theorem seen_run {u : CharTables} {complete : List Nat → Reply} {m : Mode} {s0 s : St} (h : ModeOk m s0) (hr : CalmRun u complete s0 s) :
    ∃ n, s.seen = s0.seen ++ List.replicate n m := by
  induction hr with
  | start => exact ⟨0, by simp⟩
  | @step s e s' hr0 hc hs ih =>
    obtain ⟨n, hn⟩ := ih
    have hm := modeOk_run h hr0
    have same : s'.seen = s.seen → ∃ n, s'.seen = s0.seen ++ List.replicate n m := fun hh => ⟨n, hh.trans hn⟩
    have htyped : ∀ (bs : List Nat) (t : St), (t.typed bs).seen = t.seen := by
      intro bs t
      unfold St.typed
      induction bs generalizing t with
      | nil => rfl
      | cons b bs ih =>
        rw [List.foldl_cons, ih]
        unfold St.typed1
        split
        · unfold St.interrupt; split <;> rfl
        · rfl
    have hcook : s.cooked.seen = s.seen := by unfold St.cooked; split <;> rfl
    cases e with
    | type bs => simp only [St.step] at hs; cases hs; exact same (htyped bs s)
    | press bs => simp only [St.step] at hs; cases hs; exact same (htyped bs s)
    | report r c =>
      simp only [St.step] at hs
      split at hs
      · cases hs; exact same rfl
      · cases hs
    | prompt cols =>
      simp only [St.step] at hs
      split at hs
      · split at hs
        · cases hs; exact same rfl
        · cases hs
      · cases hs
    | read =>
      apply same
      simp only [St.step] at hs
      unfold St.read at hs
      split at hs
      · split at hs
        · cases hs
        · split at hs
          · cases hs; rfl
          · split at hs
            · cases hs; rfl
            · cases hs; rfl
      · split at hs
        · cases hs
        · split at hs
          · cases hs; rfl
          · cases hs; exact hcook
          · cases hs; exact hcook
          · cases hs; rfl
      · split at hs
        · cases hs
        · rename_i b s1 hf
          have hs1 : s1.seen = s.seen := by
            unfold St.fgetc at hf
            split at hf
            · cases hf; rfl
            · split at hf
              · cases hf
              · split at hf
                · cases hf; rfl
                · cases hf; rfl
          split at hs
          · cases hs; exact hs1
          · cases hs; exact hs1
      · cases hs
    | pause =>
      simp only [St.step] at hs
      split at hs
      · cases hs; exact same rfl
      · cases hs
    | poll => exact hc.elim
    | program m' =>
      simp only [St.step] at hs
      split at hs
      · rename_i hp
        cases hs
        unfold ModeOk at hm
        rw [hp] at hm
        refine ⟨n + 1, ?_⟩
        show s.seen ++ [s.mode] = _
        rw [hn, hm.1, List.replicate_succ', List.append_assoc]
      · cases hs
    | quit =>
      simp only [St.step] at hs
      split at hs
      · cases hs
      · cases hs
      · cases hs; exact same hcook

end PBat.Tty
