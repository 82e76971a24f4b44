import Verif.Lemmas.Pipe
/-
Lemmas for C93: what the programs of the threads do to the descriptors they own.
-/
namespace PBat.Pipe

variable {ι φ : Type}

/-- A sequence of system calls. -/
def symL : List (Act ι φ) → Own φ → Option (Own φ)
  | [], o => some o
  | a :: l, o =>
    match sym a o with
    | some o' => symL l o'
    | none => none

theorem symL_append (l l' : List (Act ι φ)) (o o' : Own φ) (h : symL l o = some o') : symL (l ++ l') o = symL l' o' := by
  induction l generalizing o with
  | nil => cases h; rfl
  | cons a l ih =>
    simp only [symL, List.cons_append] at h ⊢
    split at h
    · rename_i o1 h1
      exact ih o1 h
    · cases h

/-- What a thread owns between two commands. -/
structure Hold (φ : Type) where
  inp : Chan φ
  out : Chan φ
  err : Chan φ
  saved : List (Option (Chan φ)) := []
  feeds : List (Chan φ) := []
  last : Option (Chan φ) := none

/-- The entry of a stack with a given number, counted from the bottom. -/
def entry {α : Type} : List α → Nat → Option α
  | [], _ => none
  | x :: l, n => if n = l.length then some x else entry l n

theorem entry_none {α : Type} (l : List α) (n : Nat) (h : l.length ≤ n) : entry l n = none := by
  induction l with
  | nil => rfl
  | cons x l ih =>
    simp only [List.length_cons] at h
    rw [entry, if_neg (by omega)]
    exact ih (by omega)

theorem entry_mem {α : Type} {l : List α} {n : Nat} {x : α} (h : entry l n = some x) : x ∈ l := by
  induction l with
  | nil => cases h
  | cons y l ih =>
    rw [entry] at h
    split at h
    · cases h; simp
    · exact List.mem_cons_of_mem _ (ih h)

def Hold.own (h : Hold φ) : Own φ
  | .inp => some h.inp
  | .out => some h.out
  | .err => some h.err
  | .saved n => (entry h.saved n).join
  | .feed n => entry h.feeds n
  | .last => h.last
  | _ => none

/-- The three streams. -/
def Std (r : Reg) : Prop := r = .inp ∨ r = .out ∨ r = .err

def Hold.get (h : Hold φ) : Reg → Chan φ
  | .inp => h.inp
  | .out => h.out
  | _ => h.err

def Hold.put (h : Hold φ) (c : Chan φ) : Reg → Hold φ
  | .inp => { h with inp := c }
  | .out => { h with out := c }
  | _ => { h with err := c }

def Hold.push (h : Hold φ) (c : Option (Chan φ)) : Hold φ := { h with saved := c :: h.saved }

/-- The stack and what it saved belong together. -/
def FitsS : List (Option Reg × Bool) → List (Option (Chan φ)) → Prop
  | [], [] => True
  | (none, _) :: l, none :: l' => FitsS l l'
  | (some r, _) :: l, some _ :: l' => Std r ∧ FitsS l l'
  | _, _ => False

theorem FitsS.length {l : List (Option Reg × Bool)} {l' : List (Option (Chan φ))} (h : FitsS l l') : l.length = l'.length := by
  induction l generalizing l' with
  | nil => cases l' <;> simp_all [FitsS]
  | cons x l ih =>
    obtain ⟨x, b⟩ := x
    cases l' with
    | nil => cases x <;> simp [FitsS] at h
    | cons y l' =>
      cases x <;> cases y <;> simp only [FitsS] at h <;> simp [ih, h]
      · exact ih h
      · exact ih h.2

def Fits (c : Ctx) (h : Hold φ) : Prop := FitsS c.stack h.saved ∧ c.feeds = h.feeds.length

/-- `Ctx.take`: the stream is saved and replaced. -/
theorem take_sym (c : Ctx) (h : Hold φ) (src r : Reg) (ch : Chan φ) (o : Own φ) (hr : Std r)
    (hl : c.stack.length = h.saved.length)
    (hs : ∀ n, src ≠ .saved n) (hs' : ¬ Std src) (ho : ∀ x, x ≠ src → o x = h.own x) (hc : o src = some ch) :
    symL (c.take (ι := ι) src r).1 o = some (upd ((h.put ch r).push (some (h.get r))).own src none) := by
  have e1 : (h.own (.saved c.stack.length)) = none := by
    simp only [Hold.own]; rw [entry_none _ _ (by omega)]; rfl
  have e2 : h.own r = some (h.get r) := by
    rcases hr with rfl | rfl | rfl <;> rfl
  have hsr : r ≠ src := fun e => hs' (e ▸ hr)
  have hss : (.saved c.stack.length : Reg) ≠ src := fun e => hs _ e.symm
  have hrs : ∀ n, (.saved n : Reg) ≠ r := by
    rcases hr with rfl | rfl | rfl <;> simp
  have a1 : o r = some (h.get r) := by rw [ho r hsr, e2]
  have a2 : o (.saved c.stack.length) = none := by rw [ho _ hss, e1]
  simp only [Ctx.take, symL, sym, a1, a2, upd, hc, hss.symm, ↓reduceIte, hrs, (hrs _).symm, hsr.symm]
  congr 1
  funext x
  simp only [upd]
  by_cases hx : x = src
  · subst hx; simp
  · simp only [hx, ↓reduceIte]
    by_cases hx' : x = r
    · subst hx'
      rcases hr with rfl | rfl | rfl <;> simp [Hold.own, Hold.put, Hold.push]
    · simp only [hx', ↓reduceIte]
      by_cases hx2 : x = .saved c.stack.length
      · subst hx2
        rcases hr with rfl | rfl | rfl <;> simp [Hold.own, Hold.put, Hold.push, entry, hl]
      · simp only [hx2, ↓reduceIte, ho x hx]
        cases x
        case saved n =>
          have hn : n ≠ h.saved.length := by rintro rfl; exact hx2 (by rw [hl])
          rcases hr with rfl | rfl | rfl <;> simp [Hold.own, Hold.put, Hold.push, entry, hn]
        all_goals
          rcases hr with rfl | rfl | rfl <;> first | rfl | exact absurd rfl hx'

/-- Redirections piled up. -/
inductive Above (c : Ctx) (h : Hold φ) : Ctx → Hold φ → Prop
  | refl : Above c h c h
  | push {c1 h1} (r : Reg) (ch : Chan φ) (e : Bool) : Above c h c1 h1 → Std r →
      Above c h { c1 with stack := (some r, c1.errOut) :: c1.stack, errOut := e } ((h1.put ch r).push (some (h1.get r)))
  | mark {c1 h1} (e : Bool) : Above c h c1 h1 →
      Above c h { c1 with stack := (none, c1.errOut) :: c1.stack, errOut := e } (h1.push none)

theorem Hold.put_same (h : Hold φ) (r : Reg) (ch : Chan φ) (hr : Std r) : (h.put ch r).put (h.get r) r = h := by
  rcases hr with rfl | rfl | rfl <;> rfl

theorem put_saved (h : Hold φ) (r : Reg) (ch : Chan φ) : (h.put ch r).saved = h.saved := by
  cases r <;> rfl

theorem put_feeds (h : Hold φ) (r : Reg) (ch : Chan φ) : (h.put ch r).feeds = h.feeds := by
  cases r <;> rfl

theorem put_last (h : Hold φ) (r : Reg) (ch : Chan φ) : (h.put ch r).last = h.last := by
  cases r <;> rfl

theorem Above.facts {c c1 : Ctx} {h h1 : Hold φ} (ha : Above c h c1 h1) (hf : Fits c h) :
    Fits c1 h1 ∧ c1.path = c.path ∧ c1.feeds = c.feeds ∧ h1.feeds = h.feeds ∧ h1.last = h.last ∧
      c.stack.length ≤ c1.stack.length := by
  induction ha with
  | refl => exact ⟨hf, rfl, rfl, rfl, rfl, Nat.le_refl _⟩
  | push r ch e _ hr ih =>
    obtain ⟨a, b, d, f, g, i⟩ := ih
    refine ⟨⟨?_, ?_⟩, b, d, ?_, ?_, ?_⟩
    · simp only [Hold.push, put_saved, FitsS]; exact ⟨hr, a.1⟩
    · simp only [Hold.push, put_feeds]; exact a.2
    · simp only [Hold.push, put_feeds]; exact f
    · simp only [Hold.push, put_last]; exact g
    · simp only [List.length_cons]; omega
  | mark e _ ih =>
    obtain ⟨a, b, d, f, g, i⟩ := ih
    refine ⟨⟨a.1, a.2⟩, b, d, f, g, ?_⟩
    simp only [List.length_cons]; omega

/-- One item taken off the stack. -/
theorem pop_sym (h : Hold φ) (r : Reg) (old : Chan φ) (hr : Std r) (n : Nat) (hn : n = h.saved.length) :
    symL (ι := ι) [.dup2 (.saved n) r, .close (.saved n)] (h.push (some old)).own =
      some (h.put old r).own := by
  subst hn
  have e2 : (h.push (some old)).own r = some (h.get r) := by
    rcases hr with rfl | rfl | rfl <;> rfl
  have e1 : (h.push (some old)).own (.saved h.saved.length) = some old := by
    simp [Hold.own, Hold.push, entry]
  have hrs : ∀ n, (.saved n : Reg) ≠ r := by
    rcases hr with rfl | rfl | rfl <;> simp
  simp only [symL, sym, e1, e2, upd, hrs, ↓reduceIte]
  congr 1
  funext x
  simp only [upd]
  by_cases hx2 : x = .saved h.saved.length
  · subst hx2
    simp only [↓reduceIte, Hold.own, put_saved]
    rw [entry_none _ _ (Nat.le_refl _)]; rfl
  · simp only [hx2, ↓reduceIte]
    by_cases hx' : x = r
    · subst hx'
      rcases hr with rfl | rfl | rfl <;> simp [Hold.own, Hold.put]
    · simp only [hx', ↓reduceIte]
      cases x
      case saved n =>
        have hn : n ≠ h.saved.length := by rintro rfl; exact hx2 rfl
        simp only [Hold.own, Hold.push, put_saved, entry, hn, ↓reduceIte]
      all_goals
        rcases hr with rfl | rfl | rfl <;> first | rfl | exact absurd rfl hx'

theorem pops_zero (l : List (Option Reg × Bool)) : pops (ι := ι) (φ := φ) l 0 = [] := by
  cases l with
  | nil => rfl
  | cons x l => obtain ⟨x, b⟩ := x; cases x <;> rfl

theorem push_none_own (h : Hold φ) : (h.push none).own = h.own := by
  funext x
  cases x
  case saved n =>
    simp only [Hold.own, Hold.push, entry]
    split
    · rename_i e; subst e
      rw [entry_none _ _ (Nat.le_refl _)]; rfl
    · rfl
  all_goals rfl

/-- What was piled up is taken off. -/
theorem Above.pops {c c1 : Ctx} {h h1 : Hold φ} (ha : Above c h c1 h1) (hf : Fits c h) :
    symL (ι := ι) (pops c1.stack (c1.stack.length - c.stack.length)) h1.own = some h.own := by
  induction ha with
  | refl => rw [Nat.sub_self, pops_zero]; rfl
  | @push c1 h1 r ch e ha hr ih =>
    have hfa := ha.facts hf
    have hl := hfa.1.1.length
    have e1 : ((some r, c1.errOut) :: c1.stack).length - c.stack.length = (c1.stack.length - c.stack.length) + 1 := by
      have := hfa.2.2.2.2.2
      simp only [List.length_cons]; omega
    simp only [e1, PBat.Pipe.pops]
    rw [symL_append _ _ _ _ (pop_sym _ r _ hr _ (by rw [put_saved]; exact hl)), Hold.put_same _ _ _ hr]
    exact ih
  | @mark c1 h1 e ha ih =>
    have hfa := ha.facts hf
    have e1 : ((none, c1.errOut) :: c1.stack).length - c.stack.length = (c1.stack.length - c.stack.length) + 1 := by
      have := hfa.2.2.2.2.2
      simp only [List.length_cons]; omega
    simp only [e1, PBat.Pipe.pops]
    rw [push_none_own]
    exact ih

/-- All of the stack is taken off. -/
theorem pops_all (l : List (Option Reg × Bool)) (h : Hold φ) (hf : FitsS l h.saved) :
    ∃ i o e, symL (ι := ι) (pops l l.length) h.own = some { h with inp := i, out := o, err := e, saved := [] : Hold φ }.own := by
  induction l generalizing h with
  | nil =>
    refine ⟨h.inp, h.out, h.err, ?_⟩
    have : h.saved = [] := by
      cases e : h.saved with
      | nil => rfl
      | cons x l => rw [e] at hf; simp [FitsS] at hf
    rw [← this]; rfl
  | cons x l ih =>
    obtain ⟨x, b⟩ := x
    obtain ⟨i, o, er, sv, fd, ls⟩ := h
    cases x with
    | none =>
      cases sv with
      | nil => simp [FitsS] at hf
      | cons y l' =>
        cases y with
        | some _ => simp [FitsS] at hf
        | none =>
          simp only [FitsS] at hf
          simp only [List.length_cons, pops]
          have := push_none_own (φ := φ) ⟨i, o, er, l', fd, ls⟩
          simp only [Hold.push] at this
          rw [this]
          exact ih ⟨i, o, er, l', fd, ls⟩ hf
    | some r =>
      cases sv with
      | nil => simp [FitsS] at hf
      | cons y l' =>
        cases y with
        | none => simp [FitsS] at hf
        | some old =>
          simp only [FitsS] at hf
          simp only [List.length_cons, pops]
          have := pop_sym (ι := ι) (φ := φ) ⟨i, o, er, l', fd, ls⟩ r old hf.1 l.length hf.2.length
          simp only [Hold.push] at this
          rw [symL_append _ _ _ _ this]
          obtain ⟨a, b, d, he⟩ := ih (Hold.put ⟨i, o, er, l', fd, ls⟩ old r) (by rw [put_saved]; exact hf.2)
          refine ⟨a, b, d, ?_⟩
          rw [he, put_feeds, put_last]

/-- What is left at the end of a thread. -/
def left (h : Hold φ) : Own φ
  | .feed n => entry h.feeds n
  | .last => h.last
  | _ => none

theorem leave_sym (c : Ctx) (h : Hold φ) (hf : Fits c h) :
    symL (ι := ι) (pops c.stack c.stack.length ++ [.close .inp, .close .out, .close .err]) h.own = some (left h) := by
  obtain ⟨i, o, e, hp⟩ := pops_all (ι := ι) c.stack h hf.1
  rw [symL_append _ _ _ _ hp]
  simp only [symL, sym, Hold.own, upd, reduceCtorEq, ↓reduceIte]
  congr 1
  funext x
  cases x <;> simp [upd, left, Hold.own, entry]

/-- Opening a file of a redirection. -/
theorem openTo_above {c c1 : Ctx} {h h1 : Hold φ} (ha : Above c h c1 h1) (hf : Fits c h) (f : Option φ) (r : Reg) (hr : Std r) :
    ∃ h2, symL (ι := ι) (c1.openTo f r).1 h1.own = some h2.own ∧ Above c h (c1.openTo (ι := ι) f r).2 h2 ∧
      h2 = (match f with
        | none => h1
        | some f => (h1.put (.file f) r).push (some (h1.get r))) := by
  cases f with
  | none => exact ⟨h1, rfl, ha, rfl⟩
  | some f =>
    have hl := (ha.facts hf).1.1.length
    refine ⟨_, ?_, ?_, rfl⟩
    · simp only [Ctx.openTo, symL]
      have e : sym (ι := ι) (.open .new f) h1.own = some (upd h1.own .new (some (.file f))) := rfl
      rw [e]
      simp only
      rw [take_sym c1 h1 .new r (.file f) _ hr hl (by simp) (by simp [Std]) (fun x hx => by simp [upd, hx]) (by simp [upd])]
      congr 1
      funext x
      simp only [upd]
      split
      · subst_vars; rfl
      · rfl
    · exact Above.push r (.file f) _ ha hr

open PBat.Spec in
/-- The streams of the commands of a thread. -/
def Hold.streams (c : Ctx) (h : Hold φ) : Streams φ := ⟨h.inp, h.out, if c.errOut then h.out else h.err⟩

open PBat.Spec in
/-- The redirections of a command. -/
theorem redirect_above {c c1 : Ctx} {h h1 : Hold φ} (ha : Above c h c1 h1) (hf : Fits c h) (r : Redirs φ) :
    ∃ h2, symL (ι := ι) (c1.redirect r).1 h1.own = some h2.own ∧ Above c h (c1.redirect (ι := ι) r).2 h2 ∧
      (c1.redirect (ι := ι) r).2.errOut = (r.merge || (c1.errOut && r.err.isNone)) ∧
      ((c1.errOut = true → r.out = none) → h2.streams (c1.redirect (ι := ι) r).2 = (h1.streams c1).under r) := by
  obtain ⟨ha1, ea, aa, da⟩ := openTo_above (ι := ι) ha hf r.inp .inp (by simp [Std])
  obtain ⟨hb1, eb, ab, db⟩ := openTo_above (ι := ι) aa hf r.out .out (by simp [Std])
  obtain ⟨hc1, ec, ac, dc⟩ := openTo_above (ι := ι) ab hf r.err .err (by simp [Std])
  have hsym : symL (ι := ι) (c1.redirect r).1 h1.own = some hc1.own := by
    simp only [Ctx.redirect]
    rw [List.append_assoc, symL_append _ _ _ _ ea, symL_append _ _ _ _ eb, ec]
  cases hm : r.merge with
  | false =>
    refine ⟨hc1, hsym, ?_, ?_, ?_⟩
    · simp only [Ctx.redirect, Ctx.merge, hm, Bool.false_eq_true, ↓reduceIte]
      exact ac
    · cases hi : r.inp <;> cases ho : r.out <;> cases he : r.err <;>
        simp [Ctx.redirect, Ctx.merge, Ctx.openTo, Ctx.take, hm, hi, ho, he]
    · intro hx
      subst dc db da
      cases he1 : c1.errOut <;> cases hi : r.inp <;> cases ho : r.out <;> cases he : r.err <;>
        simp_all [Ctx.redirect, Ctx.merge, Ctx.openTo, Ctx.take, Hold.streams, Streams.under, Hold.push, Hold.put]
  | true =>
    refine ⟨hc1.push none, ?_, ?_, ?_, ?_⟩
    · rw [push_none_own]; exact hsym
    · simp only [Ctx.redirect, Ctx.merge, hm, ↓reduceIte]
      exact Above.mark true ac
    · simp [Ctx.redirect, Ctx.merge, hm]
    · intro hx
      subst dc db da
      cases he1 : c1.errOut <;> cases hi : r.inp <;> cases ho : r.out <;> cases he : r.err <;>
        simp_all [Ctx.redirect, Ctx.merge, Ctx.openTo, Ctx.take, Hold.streams, Streams.under, Hold.push, Hold.put]

/-- The descriptors made for a clone. -/
def cloned (h : Hold φ) (c : Ctx) (o : Own φ) : Own φ :=
  upd (upd (upd o .cin (some h.inp)) .cout (some h.out)) .cerr (some (h.streams c).err)

theorem clone_sym (c : Ctx) (h : Hold φ) (o : Own φ) (h1 : o .inp = some h.inp) (h2 : o .out = some h.out)
    (h3 : o .err = some h.err) (h4 : o .cin = none) (h5 : o .cout = none) (h6 : o .cerr = none) :
    symL (ι := ι) c.clone o = some (cloned h c o) := by
  cases he : c.errOut <;>
    simp [Ctx.clone, symL, sym, upd, he, h1, h2, h3, h4, h5, h6, cloned, Hold.streams]

/-- A clone that begins. -/
theorem joined_sym (p : Name) (i o e w : Chan φ) (d : Option (Chan φ)) (b : Bool) (hb : b = d.isSome) (ow : Own φ)
    (ho : ow = fun | .inp => some i | .out => some o | .err => some e | .fdout => some w | .fdin => d | _ => none) :
    ∃ h1 : Hold φ, symL (ι := ι) (Ctx.joined { path := p } b).1 ow = some h1.own ∧
      Fits (Ctx.joined (ι := ι) (φ := φ) { path := p } b).2 h1 ∧
      (Ctx.joined (ι := ι) (φ := φ) { path := p } b).2.path = p ∧ (Ctx.joined (ι := ι) (φ := φ) { path := p } b).2.errOut = false ∧
      (Ctx.joined (ι := ι) (φ := φ) { path := p } b).2.feeds = 0 ∧ h1.feeds = [] ∧ h1.last = none ∧
      h1.inp = d.getD i ∧ h1.out = w ∧ h1.err = e := by
  subst ho
  cases d with
  | none =>
    subst hb
    refine ⟨{ inp := i, out := w, err := e, saved := [some o] }, ?_, ?_, rfl, rfl, rfl, rfl, rfl, rfl, rfl, rfl⟩
    · simp only [Ctx.joined, Option.isSome_none, Bool.false_eq_true, ↓reduceIte, Ctx.take, symL, sym, upd, reduceCtorEq]
      congr 1
      funext x
      cases x <;> simp [upd, Hold.own, entry]
      split <;> rfl
    · simp [Fits, FitsS, Ctx.joined, Ctx.take, Std]
  | some d =>
    subst hb
    refine ⟨{ inp := d, out := w, err := e, saved := [some i, some o] }, ?_, ?_, rfl, rfl, rfl, rfl, rfl, rfl, rfl, rfl⟩
    · simp only [Ctx.joined, Option.isSome_some, ↓reduceIte, Ctx.take, symL, sym, upd, reduceCtorEq, List.cons_append,
        List.nil_append, List.length_cons, List.length_nil, Reg.saved.injEq]
      simp
      funext x
      cases x <;> simp [upd, Hold.own, entry]
      rename_i n
      by_cases h0 : n = 0
      · simp [h0]
      · by_cases h1 : n = 1 <;> simp [h0, h1]
    · simp [Fits, FitsS, Ctx.joined, Ctx.take, Std]

/-- The last member of a pipeline gets its input. -/
theorem fed_above (c : Ctx) (h : Hold φ) (hf : Fits c h) (b : Bool) (hb : b = h.last.isSome) :
    ∃ h1 : Hold φ, symL (ι := ι) (c.fed b).1 h.own = some h1.own ∧
      Above c { h with last := none } (c.fed (ι := ι) (φ := φ) b).2 h1 ∧
      (c.fed (ι := ι) (φ := φ) b).2.errOut = c.errOut ∧ h1.inp = h.last.getD h.inp ∧ h1.out = h.out ∧ h1.err = h.err := by
  cases hl : h.last with
  | none =>
    rw [hl] at hb
    subst hb
    have e : ({ h with last := none } : Hold φ) = h := by cases h; simp_all
    refine ⟨h, rfl, ?_, rfl, rfl, rfl, rfl⟩
    rw [e]
    exact Above.refl
  | some x =>
    rw [hl] at hb
    subst hb
    refine ⟨(({ h with last := none } : Hold φ).put x .inp).push (some h.inp), ?_, ?_, rfl, rfl, rfl, rfl⟩
    · simp only [Ctx.fed, Option.isSome_some, ↓reduceIte]
      rw [take_sym c { h with last := none } .last .inp x h.own (by simp [Std]) hf.1.length (by simp) (by simp [Std])
        (fun y hy => by cases y <;> first | rfl | exact absurd rfl hy) (by simp [Hold.own, hl])]
      congr 1
      funext y
      simp only [upd]
      split
      · subst_vars; rfl
      · rfl
    · exact Above.push .inp x c.errOut Above.refl (by simp [Std])

end PBat.Pipe
