import Verif.Lemmas.StdIn
/-
C109: what a command reads comes from where its line says: each source of input gives its bytes once and in order.
-/
namespace PBat.In
open PBat.Spec.In

/-- Full statement: for every history of reads and redirections, what is read is what the sources have to give.  Proved, for every library, for the
histories in which the input is redirected, given back or handed to a program only when the stream has read nothing ahead and, if that lasts, has
not met the end; the cases left out are violations, below. -/
theorem C109_partial (l : Lib) (s : St) (h : Fresh s) (ops : List Op) (hc : AllCalm l s ops) :
    (PBat.In.run l s ops).1 = PBat.Spec.In.run (sources s) ops :=
  rel_run ops s _ (rel_fresh h) hc

/-- With a library whose `fflush` drops what was read ahead and whose mark for the end does not last (what the comment in the code
expects), every history of reads and nested redirections of files is right, however much is read ahead. -/
theorem C109_files (l : Lib) (hl : l.sync = .drop) (hs : l.sticky = false) (s : St) (h : Fresh s)
    (hk : s.cur.seek = true ∧ ∀ d ∈ s.stack, d.seek = true) (ops : List Op) (hp : ∀ o ∈ ops, Plain o) :
    (PBat.In.run l s ops).1 = PBat.Spec.In.run (sources s) ops :=
  rel_run ops s _ (rel_fresh h) (calm_plain hl hs ops s hk hp)

/-- Commands that read one and the same input one after the other share it as they should, with every library. -/
theorem C109_shared (l : Lib) (s : St) (h : Fresh s) (ops : List Op)
    (ho : ∀ o ∈ ops, (∃ k, o = .getc k) ∨ (∃ k, o = .gets k) ∨ ∃ k, o = .all k) :
    (PBat.In.run l s ops).1 = PBat.Spec.In.run (sources s) ops := by
  refine C109_partial l s h ops ?_
  have : ∀ (ops : List Op) (s : St), (∀ o ∈ ops, (∃ k, o = .getc k) ∨ (∃ k, o = .gets k) ∨ ∃ k, o = .all k) → AllCalm l s ops := by
    intro ops
    induction ops with
    | nil => intros; trivial
    | cons o os ih =>
      intro s ho
      refine ⟨?_, ih _ fun o' h' => ho o' (by simp [h'])⟩
      rcases ho o (by simp) with ⟨k, rfl⟩ | ⟨k, rfl⟩ | ⟨k, rfl⟩ <;> trivial
  exact this ops s ho

/-- A program reads what the commands before it left, if nothing was read ahead. -/
theorem C109_program_partial (l : Lib) (s : St) (hb : s.buf = []) (n : Nat) (k : Nat → Nat) (he : s.eof = false) :
    (PBat.In.run l s [.direct n, .all k]).1 = [(sources s).cur.take n, (sources s).cur.drop n] :=
  C109_partial l s ⟨hb, he⟩ [.direct n, .all k] ⟨hb, trivial, trivial⟩

/-- The redirection of one command, undone when it has ended, does not touch the input of the others: whatever the commands of the
redirection do not read is not taken from it either. -/
theorem C109_aside (l : Lib) (s : St) (h : Fresh s) (d : Desc) (n : Nat) (k : Nat → Nat) :
    (PBat.In.run l s [.openIn d, .direct n, .pop, .all k]).1 = [[], d.rest.take n, [], s.cur.rest] := by
  have := C109_partial l s h [.openIn d, .direct n, .pop, .all k]
    ⟨⟨fun _ => h.2, .inl h.1⟩, ?_, ⟨fun _ => ?_, .inl ?_⟩, trivial, trivial⟩
  · rw [this]; rfl
  · show (leave l s).buf = []
    rw [leave_nil h.1]; exact h.1
  · show (leave l s).eof = false
    rw [leave_nil h.1]; exact h.2
  · show (leave l s).buf = []
    rw [leave_nil h.1]; exact h.1

/-! ### Violations -/

/-- Violation, with a library whose mark for the end lasts (the C standard asks for it): once the end of one input was met, nobody who uses the
stream reads anything any more, from whatever input. -/
theorem C109_end (l : Lib) (hl : l.sticky = true) : ∀ (ops : List Op) (s : St), s.buf = [] → s.eof = true →
    (∀ o ∈ ops, ∀ n, o ≠ .direct n) → ∀ out ∈ (PBat.In.run l s ops).1, out = [] := by
  intro ops
  induction ops with
  | nil => intro s _ _ _ out ho; cases ho
  | cons o os ih =>
    intro s hb he ho out hout
    have key : (PBat.In.step l s o).1 = [] ∧ (PBat.In.step l s o).2.buf = [] ∧ (PBat.In.step l s o).2.eof = true := by
      cases o with
      | getc k => simp only [PBat.In.step, getc_end hl hb he]; exact ⟨rfl, hb, he⟩
      | gets k => simp only [PBat.In.step, gets, getMany_end hl hb he]; exact ⟨trivial, hb, he⟩
      | all k => simp only [PBat.In.step, all, getMany_end hl hb he]; exact ⟨trivial, hb, he⟩
      | direct n => exact absurd rfl (ho _ (by simp) n)
      | openIn d =>
        simp only [PBat.In.step, openIn, leave_nil hb]; exact ⟨trivial, hb, he⟩
      | pop =>
        simp only [PBat.In.step, pop, leave_nil hb]
        split <;> exact ⟨trivial, hb, he⟩
    rcases List.mem_cons.1 hout with rfl | hout
    · exact key.1
    · exact ih _ key.2.1 key.2.2 (fun o' h' => ho o' (by simp [h'])) out hout

/-- So the second of two commands that read a redirected file to its end, as in `find "x" <a` and then `find "x" <b`, reads nothing, whatever is
in the files. -/
theorem C109_second (l : Lib) (hl : l.sticky = true) (s : St) (h : Fresh s) (a b : Desc) (k k' : Nat → Nat) :
    (PBat.In.run l s [.openIn a, .all k, .pop, .openIn b, .all k']).1 = [[], a.rest, [], [], []] := by
  have h1 : openIn l a s = { s with cur := a, stack := s.cur :: s.stack } := by
    simp only [openIn, leave_nil h.1]
  obtain ⟨g1, g2, g3, -, -⟩ := all_spec (l := l) k (openIn l a s) (by rw [h1]; exact h.2)
  have g : ∀ out ∈ (PBat.In.run l (all l k (openIn l a s)).2 [.pop, .openIn b, .all k']).1, out = [] :=
    C109_end l hl _ _ g2 g3 (by intro o ho n; simp at ho; rcases ho with rfl | rfl | rfl <;> simp)
  have e1 : (openIn l a s).buf ++ (openIn l a s).cur.rest = a.rest := by rw [h1]; simp [h.1]
  rw [e1] at g1
  show [] :: (all l k (openIn l a s)).1 :: (PBat.In.run l (all l k (openIn l a s)).2 [.pop, .openIn b, .all k']).1 = _
  rw [g1]
  simp only [PBat.In.run] at g ⊢
  simp only [List.mem_cons, List.not_mem_nil, or_false, forall_eq_or_imp, forall_eq] at g
  rw [g.1, g.2.1, g.2.2]

/-- Violation, with the GNU library: when a file was read less far than it was read ahead, a command whose input is redirected first reads the
rest of that file. -/
theorem C109_other_file (l : Lib) (hl : l.sync = .back) (s : St) (he : s.eof = false) (hs : s.cur.seek = true)
    (hle : s.buf.length ≤ s.cur.pos) (hlt : s.cur.pos - s.buf.length < s.buf.length) (d : Desc) (k : Nat → Nat) :
    (PBat.In.run l s [.openIn d, .all k]).1 = [[], s.buf ++ d.rest] := by
  have h1 : leave l s = { s with cur := { s.cur with pos := s.cur.pos - s.buf.length } } := by
    unfold leave flush seekBack
    have hn : s.buf ≠ [] := by intro h; rw [h] at hlt; simp at hlt
    have hno : ¬ s.buf.length ≤ s.cur.pos - s.buf.length := by omega
    simp only [hs, hle, decide_true, Bool.and_self, if_true, hl, hn, if_false, hno, decide_false, Bool.and_false,
      Bool.false_eq_true]
  have h2 := (all_spec (l := l) k (openIn l d s) (by simp only [openIn, h1]; exact he)).1
  have e1 : (openIn l d s).buf ++ (openIn l d s).cur.rest = s.buf ++ d.rest := by simp only [openIn, h1]
  rw [e1] at h2
  show [[], (all l k (openIn l d s)).1] = _
  rw [h2]

/-- Violation, with both libraries of Linux: otherwise what was read last is read again after the redirection, as much as had been read ahead. -/
theorem C109_again (l : Lib) (hl : l.sync ≠ .drop) (s : St) (he : s.eof = false) (hs : s.cur.seek = true)
    (hle : s.buf.length ≤ s.cur.pos - s.buf.length) (d : Desc) (k : Nat → Nat) :
    (PBat.In.run l s [.openIn d, .pop, .all k]).1
      = [[], [], s.cur.data.drop (s.cur.pos - s.buf.length - s.buf.length)] := by
  have hle' : s.buf.length ≤ s.cur.pos := by omega
  have h1 : leave l s = { s with buf := [], cur := { s.cur with pos := s.cur.pos - s.buf.length - s.buf.length } } := by
    unfold leave flush seekBack
    cases hl' : l.sync with
    | drop => exact absurd hl' hl
    | back =>
      simp only [hs, hle', hle, decide_true, Bool.and_self, if_true]
      split
      · next hb => simp [hb]
      · rfl
    | backDrop =>
      simp only [hs, hle', hle, decide_true, Bool.and_self, if_true]
  have h3 : pop l (openIn l d s) = leave l s := by
    have hb : (openIn l d s).buf = [] := by simp only [openIn, h1]
    unfold pop
    rw [leave_nil hb]
    simp only [openIn, h1]
  have h2 := (all_spec (l := l) k (pop l (openIn l d s)) (by rw [h3, h1]; exact he)).1
  have e1 : (pop l (openIn l d s)).buf ++ (pop l (openIn l d s)).cur.rest
      = s.cur.data.drop (s.cur.pos - s.buf.length - s.buf.length) := by rw [h3, h1]; rfl
  rw [e1] at h2
  show [[], [], (all l k (pop l (openIn l d s))).1] = _
  rw [h2]

/-- Violation: what was read ahead of a pipe is given to the command whose input is redirected (GNU library). -/
theorem C109_pipe_mixed (l : Lib) (hl : l.sync = .back) (s : St) (he : s.eof = false) (hs : s.cur.seek = false) (d : Desc) (k : Nat → Nat) :
    (PBat.In.run l s [.openIn d, .all k]).1 = [[], s.buf ++ d.rest] := by
  have h1 : leave l s = s := by
    unfold leave flush seekBack
    simp only [hs, Bool.false_and, Bool.false_eq_true, if_false, hl]
    split <;> rfl
  have h2 := (all_spec (l := l) k (openIn l d s) (by simp only [openIn, h1]; exact he)).1
  have e1 : (openIn l d s).buf ++ (openIn l d s).cur.rest = s.buf ++ d.rest := by simp only [openIn, h1]
  rw [e1] at h2
  show [[], (all l k (openIn l d s)).1] = _
  rw [h2]

/-- Violation: or it is lost (the other libraries). -/
theorem C109_pipe_lost (l : Lib) (hl : l.sync ≠ .back) (s : St) (he : s.eof = false) (hs : s.cur.seek = false) (d : Desc) (k : Nat → Nat) :
    (PBat.In.run l s [.openIn d, .pop, .all k]).1 = [[], [], s.cur.rest] := by
  have h1 : leave l s = { s with buf := [] } := by
    unfold leave flush seekBack
    simp only [hs, Bool.false_and, Bool.false_eq_true, if_false]
    cases hl' : l.sync with
    | drop => rfl
    | back => exact absurd hl' hl
    | backDrop => rfl
  have h3 : pop l (openIn l d s) = leave l s := by
    have hb : (openIn l d s).buf = [] := by simp only [openIn, h1]
    unfold pop
    rw [leave_nil hb]
    simp only [openIn, h1]
  have h2 := (all_spec (l := l) k (pop l (openIn l d s)) (by rw [h3, h1]; exact he)).1
  have e1 : (pop l (openIn l d s)).buf ++ (pop l (openIn l d s)).cur.rest = s.cur.rest := by rw [h3, h1]; rfl
  rw [e1] at h2
  show [[], [], (all l k (pop l (openIn l d s))).1] = _
  rw [h2]

/-- Violation, with every library: a program started after SET /P has read a line does not get the lines behind it that were read with it: if the
whole input was, it gets nothing. -/
theorem C109_program (l : Lib) (s : St) (h : Fresh s) (k : Nat → Nat) (hk : s.cur.rest.length ≤ k s.cur.pos) (n : Nat) :
    (PBat.In.run l s [.gets k, .direct n]).1 = [line s.cur.rest, []] := by
  have hr := rel_getMany (l := l) k (· == 10) (fuel s) s (sources s) (rel_fresh h) (fuel_lt (l := l) (rel_fresh h))
  rw [upTo_line] at hr
  have hcur : (gets l k s).2.cur.rest = [] := by
    have : ∀ (n : Nat) (s : St), s.eof = false → (s.buf = [] → s.cur.rest.length ≤ k s.cur.pos) → (s.buf ≠ [] → s.cur.rest = []) → 0 < n →
        (getMany l k (· == 10) n s).2.cur.rest = [] := by
      intro n
      induction n with
      | zero => intro s _ _ _ h; omega
      | succ n ih =>
        intro s he hb hb' _
        unfold getMany getc
        cases hbuf : s.buf with
        | cons b r =>
          have hr := hb' (by rw [hbuf]; simp)
          simp only
          split
          · exact hr
          · cases n with
            | zero => exact hr
            | succ n =>
              exact ih { s with buf := r } he (fun _ => by show s.cur.rest.length ≤ _; rw [hr]; simp) (fun _ => hr) (by omega)
        | nil =>
          have hf : (l.sticky && s.eof) = false := by rw [he, Bool.and_false]
          simp only [hf, Bool.false_eq_true, if_false]
          cases ht : s.cur.rest.take (max 1 (k s.cur.pos)) with
          | nil => exact take_max_nil ht
          | cons b r =>
            simp only
            have hall : s.cur.rest.take (max 1 (k s.cur.pos)) = s.cur.rest :=
              List.take_of_length_le (by have := hb hbuf; omega)
            have hlen : s.cur.rest.length = r.length + 1 := by rw [← hall, ht]; rfl
            have hr : ({ s.cur with pos := s.cur.pos + (r.length + 1) } : Desc).rest = [] := by
              show s.cur.data.drop _ = []
              rw [rest_add, List.drop_eq_nil_of_le (by omega)]
            split
            · exact hr
            · cases n with
              | zero => exact hr
              | succ n =>
                refine ih { s with buf := r, cur := { s.cur with pos := s.cur.pos + (r.length + 1) } } he (fun _ => ?_) (fun _ => hr) (by omega)
                show List.length _ ≤ _
                rw [hr]; simp
    exact this (fuel s) s h.2 (fun _ => hk) (fun hb => absurd h.1 hb) (by unfold fuel; omega)
  show [(gets l k s).1, ((gets l k s).2.cur.rest.take n)] = _
  rw [hcur, show (gets l k s).1 = _ from hr.1]
  simp; rfl

/-! ### Examples -/

/-- A file with two lines, `a` and `b`. -/
def exAB : Desc := { data := [97, 10, 98, 10], pos := 0, seek := true }
/-- A file with the line `c`. -/
def exC : Desc := { data := [99, 10], pos := 0, seek := true }
def exSt (d : Desc) : St := { cur := d, buf := [], eof := false, stack := [] }

example : Fresh (exSt exAB) ∧ AllCalm .gnu (exSt exAB) [.openIn exC, .getc (fun _ => 1), .pop, .gets (fun _ => 4096)] :=
  ⟨⟨rfl, rfl⟩, ⟨fun _ => rfl, .inl rfl⟩, trivial, ⟨fun _ => rfl, .inl rfl⟩, trivial, trivial⟩

/-- `set /p x=`, `set /p y=<c`, `set /p z=`. -/
example : (PBat.In.run .ms (exSt exAB) [.gets (fun _ => 4096), .openIn exC, .gets (fun _ => 4096), .pop, .gets (fun _ => 4096)]).1
    = [[97, 10], [], [99, 10], [], [98, 10]] := by decide
example : ∀ o ∈ [Op.gets (fun _ => 4096), .openIn exC, .gets (fun _ => 4096), .pop, .gets (fun _ => 4096)], Plain o := by
  intro o ho
  simp at ho
  rcases ho with rfl | rfl | rfl | rfl | rfl <;> first | trivial | rfl

/-- The same with the GNU library: `z` is `a` again.  With a longer file `y` is `b`. -/
example : (PBat.In.run .gnu (exSt exAB) [.gets (fun _ => 4096), .openIn exC, .gets (fun _ => 4096), .pop, .gets (fun _ => 4096)]).1
    = [[97, 10], [], [99, 10], [], [97, 10]] := by decide
example : (PBat.In.run .gnu (exSt { exAB with data := [97, 10, 98, 10, 98, 10] })
      [.gets (fun _ => 4096), .openIn exC, .gets (fun _ => 4096)]).1 = [[97, 10], [], [98, 10]] := by decide

/-- The state after a line was read of a file and the rest ahead meets the hypotheses of `C109_again`. -/
example : let s := (gets .gnu (fun _ => 4096) (exSt exAB)).2
    s.eof = false ∧ s.cur.seek = true ∧ s.buf = [98, 10] ∧ s.buf.length ≤ s.cur.pos - s.buf.length := by decide
/-- And of a longer one those of `C109_other_file`. -/
example : let s := (gets .gnu (fun _ => 4096) (exSt { exAB with data := [97, 10, 98, 10, 98, 10] })).2
    s.eof = false ∧ s.cur.seek = true ∧ s.buf.length ≤ s.cur.pos ∧ s.cur.pos - s.buf.length < s.buf.length := by decide
/-- And of a pipe those of `C109_pipe_mixed` and `C109_pipe_lost`. -/
example : let s := (gets .musl (fun _ => 4096) (exSt { exAB with seek := false })).2
    s.eof = false ∧ s.cur.seek = false ∧ s.buf = [98, 10] := by decide
/-- After FIND the hypotheses of `C109_end` hold. -/
example : let s := (all .gnu (fun _ => 4096) (exSt exAB)).2
    s.buf = [] ∧ s.eof = true := by decide
/-- `set /p x=` and then a program. -/
example : (PBat.In.run .ms (exSt exAB) [.gets (fun _ => 4096), .direct 100]).1 = [[97, 10], []] := by decide

end PBat.In
