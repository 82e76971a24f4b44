import Verif.Spec.Pipe
/-
Lemmas for C93.  Each thread owns descriptors; a step of a thread only touches what it owns.
-/
namespace PBat.Pipe

variable {ι φ : Type}

/-- What a thread owns: the variables that hold an open descriptor, and what it designates. -/
abbrev Own (φ : Type) := Reg → Option (Chan φ)

/-- The effect of a system call on what its thread owns. -/
def sym (a : Act ι φ) (o : Own φ) : Option (Own φ) :=
  match a with
  | .dup d s =>
    match o s, o d with
    | some c, none => some (upd o d (some c))
    | _, _ => none
  | .dup2 s d =>
    match o s, o d with
    | some c, some _ => some (upd o d (some c))
    | _, _ => none
  | .close r =>
    match o r with
    | some _ => some (upd o r none)
    | none => none
  | .open d f =>
    match o d with
    | none => some (upd o d (some (.file f)))
    | some _ => none
  | .pipe p r w =>
    match o r, o w, decide (r = w) with
    | none, none, false => some (upd (upd o r (some (.rd p))) w (some (.wr p)))
    | _, _, _ => none
  | .move d s =>
    match o s, o d with
    | some c, none => some (upd (upd o s none) d (some c))
    | _, _ => none
  | .run _ _ =>
    match o .inp, o .out, o .err with
    | some _, some _, some _ => some o
    | _, _, _ => none

/-- The command a system call runs. -/
def ev (a : Act ι φ) (who : Name) (o : Own φ) : List (Event ι φ) :=
  match a with
  | .run i e =>
    match o .inp, o .out, o .err with
    | some a, some b, some c => [⟨who, i, a, b, if e then b else c⟩]
    | _, _, _ => []
  | _ => []

/-- What a clone owns when it starts. -/
def childOwn (out inp : Bool) (o : Own φ) : Own φ
  | .inp => o .cin
  | .out => o .cout
  | .err => o .cerr
  | .fdout => if out then o .p1 else none
  | .fdin => if inp then o .last else none
  | _ => none

/-- What its parent owns then. -/
def restOwn (out inp : Bool) (o : Own φ) : Own φ
  | .cin => none
  | .cout => none
  | .cerr => none
  | .p1 => if out then none else o .p1
  | .last => if inp then none else o .last
  | r => o r

/-- A program that only touches what its thread owns.  `I` holds all along, `fin` at the end. -/
inductive Ok (I : Name → Nat → Own φ → Prop) (fin : Name → Own φ → Prop) :
    Name → Nat → Prog ι φ → Own φ → Prop
  | done {π n o} : I π n o → fin π o → Ok I fin π n .done o
  | act {π n a k o o'} : I π n o → sym a o = some o' → Ok I fin π n k o' → Ok I fin π n (.act a k) o
  | spawn {π n bo bi ch k o} : I π n o → Ok I fin (n :: π) 0 ch (childOwn bo bi o) →
      Ok I fin π (n + 1) k (restOwn bo bi o) → Ok I fin π n (.spawn (n :: π) bo bi ch k) o

/-- The commands a program runs, those of the clones included. -/
def Prog.events : Prog ι φ → Name → Own φ → List (Event ι φ)
  | .done, _, _ => []
  | .act a k, π, o => ev a π o ++ k.events π ((sym a o).getD o)
  | .spawn p bo bi ch k, π, o => ch.events p (childOwn bo bi o) ++ k.events π (restOwn bo bi o)

/-! ### Ownership -/

/-- The descriptors are shared out: `own` gives what each owner has, `reg` the number of the descriptor. -/
structure Owns {K : Type} (tab frame : Nat → Option (Chan φ)) (own : K → Option (Chan φ)) (reg : K → Nat) : Prop where
  val : ∀ k c, own k = some c → tab (reg k) = some c
  inj : ∀ k k', own k ≠ none → own k' ≠ none → reg k = reg k' → k = k'
  cov : ∀ fd c, tab fd = some c → (∃ k, own k = some c ∧ reg k = fd) ∨ frame fd = some c
  frm : ∀ fd c, frame fd = some c → tab fd = some c ∧ ∀ k, own k ≠ none → reg k ≠ fd

section
variable {K : Type} [DecidableEq K] {tab frame : Nat → Option (Chan φ)} {own : K → Option (Chan φ)} {reg : K → Nat}

theorem Owns.alloc (h : Owns tab frame own reg) {n : Nat} (hn : tab n = none) {k : K} (hk : own k = none)
    (c : Chan φ) : Owns (upd tab n (some c)) frame (upd own k (some c)) (upd reg k n) := by
  have h1' : ∀ k, own k ≠ none → tab (reg k) ≠ none := by
    intro k a b
    cases e : own k with
    | none => exact a e
    | some c => rw [h.val k c e] at b; cases b
  obtain ⟨h1, h2, h3, h4⟩ := h
  refine ⟨?_, ?_, ?_, ?_⟩
  · intro k' c'; simp only [upd]; grind
  · intro k' k''; simp only [upd]; grind
  · intro fd c'; simp only [upd]
    split
    · rename_i e
      intro hc
      refine .inl ⟨k, by simp [hc], by simp [e]⟩
    · intro hc
      rcases h3 fd c' hc with ⟨k', a, b⟩ | a
      · refine .inl ⟨k', ?_, ?_⟩
        · rw [if_neg (by rintro rfl; rw [hk] at a; cases a)]; exact a
        · rw [if_neg (by rintro rfl; rw [hk] at a; cases a)]; exact b
      · exact .inr a
  · intro fd c' hf
    have := h4 fd c' hf
    simp only [upd]
    refine ⟨?_, ?_⟩
    · rw [if_neg (by rintro rfl; rw [hn] at this; cases this.1)]; exact this.1
    · intro k' ; grind

theorem Owns.over (h : Owns tab frame own reg) {k : K} (hk : own k ≠ none) (c : Chan φ) :
    Owns (upd tab (reg k) (some c)) frame (upd own k (some c)) reg := by
  obtain ⟨h1, h2, h3, h4⟩ := h
  refine ⟨?_, ?_, ?_, ?_⟩
  · intro k' c'; simp only [upd]; grind
  · intro k' k''; simp only [upd]; grind
  · intro fd c'; simp only [upd]
    split
    · rename_i e
      intro hc
      exact .inl ⟨k, by simp [hc], e.symm⟩
    · intro hc
      rcases h3 fd c' hc with ⟨k', a, b⟩ | a
      · refine .inl ⟨k', ?_, b⟩
        rw [if_neg (by rintro rfl; exact absurd b.symm (by assumption))]; exact a
      · exact .inr a
  · intro fd c' hf
    have := h4 fd c' hf
    simp only [upd]
    refine ⟨?_, ?_⟩
    · rw [if_neg (fun e => this.2 k hk e.symm)]; exact this.1
    · intro k' ; grind

theorem Owns.free (h : Owns tab frame own reg) {k : K} (hk : own k ≠ none) :
    Owns (upd tab (reg k) none) frame (upd own k none) reg := by
  obtain ⟨h1, h2, h3, h4⟩ := h
  refine ⟨?_, ?_, ?_, ?_⟩
  · intro k' c'; simp only [upd]; grind
  · intro k' k''; simp only [upd]; grind
  · intro fd c'; simp only [upd]
    split
    · intro hc; cases hc
    · intro hc
      rcases h3 fd c' hc with ⟨k', a, b⟩ | a
      · refine .inl ⟨k', ?_, b⟩
        rw [if_neg (by rintro rfl; exact absurd b.symm (by assumption))]; exact a
      · exact .inr a
  · intro fd c' hf
    have := h4 fd c' hf
    simp only [upd]
    refine ⟨?_, ?_⟩
    · rw [if_neg (fun e => this.2 k hk e.symm)]; exact this.1
    · intro k' ; grind

theorem Owns.give (h : Owns tab frame own reg) {k k' : K} (hk' : own k' = none) :
    Owns tab frame (upd (upd own k none) k' (own k)) (upd reg k' (reg k)) := by
  obtain ⟨h1, h2, h3, h4⟩ := h
  refine ⟨?_, ?_, ?_, ?_⟩
  · intro j c'; simp only [upd]; grind
  · intro j j'; simp only [upd]; grind
  · intro fd c' hc
    rcases h3 fd c' hc with ⟨j, a, b⟩ | a
    · left
      by_cases e : j = k
      · subst e
        exact ⟨k', by simp [upd, a], by simp [upd, b]⟩
      · have e' : j ≠ k' := by rintro rfl; rw [hk'] at a; cases a
        exact ⟨j, by simp [upd, e, e', a], by simp [upd, e', b]⟩
    · exact .inr a
  · intro fd c' hf
    have := h4 fd c' hf
    refine ⟨this.1, ?_⟩
    intro j; simp only [upd]; grind

theorem Owns.congr {reg' : K → Nat} (h : Owns tab frame own reg) (hr : ∀ k, own k ≠ none → reg' k = reg k) :
    Owns tab frame own reg' := by
  obtain ⟨h1, h2, h3, h4⟩ := h
  refine ⟨?_, ?_, ?_, ?_⟩
  · intro k c hc; rw [hr k (by simp [hc])]; exact h1 k c hc
  · intro k k' a b; rw [hr k a, hr k' b]; exact h2 k k' a b
  · intro fd c hc
    rcases h3 fd c hc with ⟨k, a, b⟩ | a
    · exact .inl ⟨k, a, by rw [hr k (by simp [a])]; exact b⟩
    · exact .inr a
  · intro fd c hf
    refine ⟨(h4 fd c hf).1, fun k a => ?_⟩
    rw [hr k a]; exact (h4 fd c hf).2 k a

theorem Owns.of_eq {own' : K → Option (Chan φ)} {reg' : K → Nat} (h : Owns tab frame own reg) (ho : ∀ k, own' k = own k)
    (hr : ∀ k, own k ≠ none → reg' k = reg k) : Owns tab frame own' reg' := by
  have : own' = own := funext ho
  subst this
  exact h.congr hr

end

/-! ### The invariant of the machine -/

theorem upd_pair {β : Type} (f : Nat → Reg → β) (i : Nat) (r : Reg) (v : β) :
    (fun k : Nat × Reg => upd f i (upd (f i) r v) k.1 k.2) = upd (fun k : Nat × Reg => f k.1 k.2) (i, r) v := by
  funext ⟨j, r'⟩
  simp only [upd, Prod.mk.injEq]
  by_cases h : j = i
  · subst h; by_cases h' : r' = r <;> simp [h', upd]
  · simp [h]

theorem upd_pair2 {β : Type} (f : Nat → Reg → β) (i : Nat) (r r2 : Reg) (v v2 : β) :
    (fun k : Nat × Reg => upd f i (upd (upd (f i) r v) r2 v2) k.1 k.2) =
      upd (upd (fun k : Nat × Reg => f k.1 k.2) (i, r) v) (i, r2) v2 := by
  funext ⟨j, r'⟩
  simp only [upd, Prod.mk.injEq]
  by_cases h : j = i
  · subst h; by_cases h' : r' = r2 <;> by_cases h'' : r' = r <;> simp [h', h'', upd]
  · simp [h]

theorem upd_same {α β : Type} [DecidableEq α] (f : α → β) (a : α) : upd f a (f a) = f := by
  funext x; simp only [upd]; split
  · subst_vars; rfl
  · rfl

theorem upd_upd {α β : Type} [DecidableEq α] (f : α → β) (a : α) (b c : β) : upd (upd f a b) a c = upd f a c := by
  funext x; simp only [upd]; split <;> rfl

theorem upd_at {α β : Type} [DecidableEq α] (f : α → β) (a : α) (b : β) : upd f a b a = b := by
  simp [upd]

/-- A system call keeps the descriptors shared out. -/
theorem act_owns {tab frame : Nat → Option (Chan φ)} {own : Nat → Own φ} {reg : Nat → Reg → Nat} {i : Nat}
    {a : Act ι φ} {o' : Own φ} {who : Name} {n1 n2 : Nat} {regs' : Reg → Nat} {tab' : Nat → Option (Chan φ)}
    {e : List (Event ι φ)}
    (h : Owns (K := Nat × Reg) tab frame (fun k => own k.1 k.2) (fun k => reg k.1 k.2))
    (hs : sym a (own i) = some o') (hd : doAct a who (reg i) tab n1 n2 = some (regs', tab', e)) :
    Owns (K := Nat × Reg) tab' frame (fun k => upd own i o' k.1 k.2) (fun k => upd reg i regs' k.1 k.2) ∧
      e = ev a who (own i) := by
  have hv : ∀ r c, own i r = some c → tab (reg i r) = some c := fun r c hc => h.val (i, r) c hc
  cases a with
  | dup d s =>
    simp only [sym] at hs
    split at hs
    · rename_i c hc hn
      cases hs
      simp only [doAct, hv s c hc] at hd
      split at hd
      · rename_i c' hc' hn'
        cases hc'
        cases hd
        refine ⟨?_, rfl⟩
        rw [upd_pair, upd_pair]
        exact h.alloc hn' (k := (i, d)) hn c
      · cases hd
    · cases hs
  | dup2 s d =>
    simp only [sym] at hs
    split at hs
    · rename_i c c2 hc hn
      cases hs
      simp only [doAct, hv s c hc, hv d c2 hn] at hd
      cases hd
      refine ⟨?_, rfl⟩
      rw [upd_pair, upd_same]
      exact h.over (k := (i, d)) (by simp [hn]) c
    · cases hs
  | close r =>
    simp only [sym] at hs
    split at hs
    · rename_i c hc
      cases hs
      simp only [doAct, hv r c hc] at hd
      cases hd
      refine ⟨?_, rfl⟩
      rw [upd_pair, upd_same]
      exact h.free (k := (i, r)) (by simp [hc])
    · cases hs
  | «open» d f =>
    simp only [sym] at hs
    split at hs
    · rename_i hn
      cases hs
      simp only [doAct] at hd
      split at hd
      · rename_i hn'
        cases hd
        refine ⟨?_, rfl⟩
        rw [upd_pair, upd_pair]
        exact h.alloc hn' (k := (i, d)) hn _
      · cases hd
    · cases hs
  | pipe p r w =>
    simp only [sym] at hs
    split at hs
    · rename_i hr hw hne
      cases hs
      simp only [doAct] at hd
      split at hd
      · rename_i h1 h2 h3
        cases hd
        refine ⟨?_, rfl⟩
        have hne' : ¬ r = w := by simpa using hne
        have hnn : ¬ n1 = n2 := by simpa using h3
        have a1 := h.alloc h1 (k := (i, r)) hr (.rd p)
        have a2 := a1.alloc (n := n2) (by simp [upd, Ne.symm hnn, h2]) (k := (i, w))
          (by simp [upd, Ne.symm hne', hw]) (.wr p)
        rw [upd_pair2, upd_pair2]
        exact a2
      · cases hd
    · cases hs
  | move d s =>
    simp only [sym] at hs
    split at hs
    · rename_i c hc hn
      cases hs
      simp only [doAct] at hd
      cases hd
      refine ⟨?_, rfl⟩
      have a1 := h.give (k := (i, s)) (k' := (i, d)) hn
      rw [upd_pair2, upd_pair]
      simp only [hc] at a1
      exact a1
    · cases hs
  | run j e' =>
    simp only [sym] at hs
    split at hs
    · rename_i c1 c2 c3 h1 h2 h3
      cases hs
      simp only [doAct, hv _ _ h1, hv _ _ h2, hv _ _ h3] at hd
      cases hd
      refine ⟨?_, by simp only [ev, h1, h2, h3]⟩
      rw [upd_same, upd_same]
      exact h
    · cases hs

/-- A system call that only touches what its thread owns does not fail. -/
theorem act_some {tab : Nat → Option (Chan φ)} {o o' : Own φ} {regs : Reg → Nat} {a : Act ι φ} {who : Name} {n1 n2 : Nat}
    (hv : ∀ r c, o r = some c → tab (regs r) = some c) (hs : sym a o = some o')
    (h1 : tab n1 = none) (h2 : tab n2 = none) (h3 : n1 ≠ n2) :
    ∃ x, doAct a who regs tab n1 n2 = some x := by
  cases a <;> simp only [sym] at hs <;> split at hs <;> try (cases hs; done)
  all_goals simp_all [doAct]

theorem flatMap_upd {α : Type} (l : List Nat) (hl : l.Nodup) (i : Nat) (hi : i ∈ l) (f g : Nat → List α) (a : List α)
    (h1 : f i = a ++ g i) (h2 : ∀ j ∈ l, j ≠ i → f j = g j) : (l.flatMap f).Perm (a ++ l.flatMap g) := by
  induction l with
  | nil => simp at hi
  | cons x l ih =>
    rw [List.nodup_cons] at hl
    rw [List.flatMap_cons, List.flatMap_cons]
    by_cases e : x = i
    · subst e
      have : l.flatMap f = l.flatMap g := by
        rw [List.flatMap_def, List.flatMap_def]
        congr 1
        apply List.map_congr_left
        intro j hj
        exact h2 j (by simp [hj]) (fun e => hl.1 (e ▸ hj))
      rw [h1, this, List.append_assoc]
    · have hi' : i ∈ l := by
        rcases List.mem_cons.1 hi with h | h
        · exact absurd h.symm e
        · exact h
      rw [h2 x (by simp) e]
      refine ((ih hl.2 hi' (fun j hj => h2 j (by simp [hj]))).append_left _).trans ?_
      rw [← List.append_assoc, ← List.append_assoc]
      exact List.perm_append_comm.append_right _

/-- The invariant. -/
structure Inv (I : Name → Nat → Own φ → Prop) (fin : Name → Own φ → Prop) (frame : Nat → Option (Chan φ))
    (total : List (Event ι φ)) (s : Sys ι φ) (own : Nat → Own φ) (num : Nat → Nat) : Prop where
  owns : Owns (K := Nat × Reg) s.tab frame (fun k => own k.1 k.2) (fun k => (fun i => (s.thr i).regs) k.1 k.2)
  beyond : ∀ i, s.size ≤ i → own i = fun _ => none
  ok : ∀ i, i < s.size → Ok I fin (s.thr i).path (num i) (s.thr i).prog (own i)
  nodup : ∀ i j, i < s.size → j < s.size → (s.thr i).path = (s.thr j).path → i = j
  cnt : ∀ i j m, i < s.size → j < s.size → (m :: (s.thr i).path) <:+ (s.thr j).path → m < num i
  perm : total.Perm (s.trace ++ (List.range s.size).flatMap (fun i => (s.thr i).prog.events (s.thr i).path (own i)))

theorem give_opt {K : Type} [DecidableEq K] {tab frame : Nat → Option (Chan φ)} {own : K → Option (Chan φ)} {reg : K → Nat}
    (h : Owns tab frame own reg) (b : Bool) {k k' : K} (hk' : own k' = none) :
    Owns tab frame (if b then upd (upd own k none) k' (own k) else own) (if b then upd reg k' (reg k) else reg) := by
  cases b with
  | true => exact h.give hk'
  | false => exact h

/-- Starting a clone shares the descriptors of its parent out between both. -/
theorem spawn_owns {tab frame : Nat → Option (Chan φ)} {own : Nat → Own φ} {reg : Nat → Reg → Nat} {i N : Nat} (bo bi : Bool)
    (h : Owns (K := Nat × Reg) tab frame (fun k => own k.1 k.2) (fun k => reg k.1 k.2)) (hN : own N = fun _ => none)
    (hi : i ≠ N) :
    Owns (K := Nat × Reg) tab frame
      (fun k => upd (upd own i (restOwn bo bi (own i))) N (childOwn bo bi (own i)) k.1 k.2)
      (fun k => upd reg N (childRegs (reg i)) k.1 k.2) := by
  have hi' : ∀ a b, ((N, a) : Nat × Reg) ≠ (i, b) := by
    intro a b e; exact hi (Prod.mk.inj e).1.symm
  have hn : ∀ r, own N r = none := fun r => by rw [hN]
  have h1 := h.give (k := (i, Reg.cin)) (k' := (N, Reg.inp)) (hn _)
  have h2 := h1.give (k := (i, Reg.cout)) (k' := (N, Reg.out)) (by simp [upd, hi', hn])
  have h3 := h2.give (k := (i, Reg.cerr)) (k' := (N, Reg.err)) (by simp [upd, hi', hn])
  have h4 := give_opt h3 bo (k := (i, Reg.p1)) (k' := (N, Reg.fdout)) (by simp [upd, hi', hn])
  have h5 := give_opt h4 bi (k := (i, Reg.last)) (k' := (N, Reg.fdin))
    (by cases bo <;> simp [upd, hi', hn])
  refine h5.of_eq ?_ ?_
  · rintro ⟨j, r⟩
    by_cases hj : j = N
    · subst hj
      cases r <;> cases bo <;> cases bi <;> simp [upd, childOwn, hi', hn]
    · by_cases hj' : j = i
      · subst hj'
        cases r <;> cases bo <;> cases bi <;> simp [upd, restOwn, hj]
      · cases bo <;> cases bi <;> simp [upd, hj, hj']
  · rintro ⟨j, r⟩
    by_cases hj : j = N
    · subst hj
      cases r <;> cases bo <;> cases bi <;> simp [upd, childRegs, hi', hn]
    · cases bo <;> cases bi <;> simp [upd, hj]

/-- Every step keeps the invariant. -/
theorem Inv.step {I : Name → Nat → Own φ → Prop} {fin : Name → Own φ → Prop} {frame : Nat → Option (Chan φ)}
    {total : List (Event ι φ)} {s u : Sys ι φ} {own : Nat → Own φ} {num : Nat → Nat} {i n1 n2 : Nat}
    (h : Inv I fin frame total s own num) (hs : s.step i n1 n2 = some u) :
    ∃ own' num', Inv I fin frame total u own' num' := by
  unfold Sys.step at hs
  split at hs
  · rename_i hi
    have hok := h.ok i hi
    split at hs
    · cases hs
    · rename_i a k hp
      split at hs
      · cases hs
      · rename_i regs tab e hd
        cases hs
        rw [hp] at hok
        cases hok with
        | act hI hsym hk =>
          rename_i o'
          obtain ⟨hw, he⟩ := act_owns (reg := fun i => (s.thr i).regs) h.owns hsym hd
          refine ⟨upd own i o', num, ?_, ?_, ?_, ?_, ?_, ?_⟩
          · refine hw.of_eq (fun _ => rfl) ?_
            rintro ⟨j, r⟩ _
            simp only [upd]
            split <;> rfl
          · intro j hj
            have : j ≠ i := by simp only at hj; omega
            simp only [upd, this, ↓reduceIte]
            exact h.beyond j hj
          · intro j hj
            simp only [upd]
            split
            · subst_vars; exact hk
            · exact h.ok j hj
          · intro j j' hj hj'
            simp only [upd]
            have := h.nodup j j' hj hj'
            grind
          · intro j j' m hj hj'
            simp only [upd]
            have := h.cnt j j' m hj hj'
            grind
          · refine h.perm.trans ?_
            simp only
            rw [List.append_assoc]
            refine List.Perm.append_left _ ?_
            refine flatMap_upd _ List.nodup_range i (List.mem_range.2 hi) _ _ e ?_ ?_
            · simp only [upd, ↓reduceIte, hp, Prog.events, he, hsym, Option.getD_some]
            · intro j _ hj
              simp only [upd, hj, ↓reduceIte]
    · rename_i p bo bi ch k hp
      cases hs
      rw [hp] at hok
      cases hok with
      | spawn hI hch hk =>
        have hne : i ≠ s.size := by omega
        have hlt : ∀ j, j < s.size + 1 → j = s.size ∨ j < s.size := by omega
        refine ⟨upd (upd own i (restOwn bo bi (own i))) s.size (childOwn bo bi (own i)),
          upd (upd num i (num i + 1)) s.size 0, ?_, ?_, ?_, ?_, ?_, ?_⟩
        · refine (spawn_owns (reg := fun i => (s.thr i).regs) (i := i) (N := s.size) bo bi h.owns (h.beyond _ (Nat.le_refl _)) hne).of_eq (fun _ => rfl) ?_
          rintro ⟨j, r⟩ _
          simp only [upd]
          by_cases hj : j = s.size
          · simp [hj]
          · by_cases hj' : j = i
            · simp [hj', hne]
            · simp [hj, hj']
        · intro j hj
          simp only at hj
          have a : j ≠ s.size := by omega
          have b : j ≠ i := by omega
          simp only [upd, a, b, ↓reduceIte]
          exact h.beyond j (by omega)
        · intro j hj
          rcases hlt j hj with rfl | hj'
          · simp only [upd, ↓reduceIte]
            exact hch
          · have a : j ≠ s.size := by omega
            by_cases b : j = i
            · subst b
              simp only [upd, a, ↓reduceIte]
              exact hk
            · simp only [upd, a, b, ↓reduceIte]
              exact h.ok j hj'
        · have hnew : ∀ j, j < s.size → (s.thr j).path ≠ num i :: (s.thr i).path := by
            intro j hj e
            have := h.cnt i j (num i) hi hj (by rw [e]; exact List.suffix_refl _)
            omega
          intro j j' hj hj'
          rcases hlt j hj with rfl | hj2 <;> rcases hlt j' hj' with rfl | hj2'
          · intro _; rfl
          · have a : j' ≠ s.size := by omega
            simp only [upd, a, ↓reduceIte]
            have := hnew j' hj2'
            grind
          · have a : j ≠ s.size := by omega
            simp only [upd, a, ↓reduceIte]
            have := hnew j hj2
            grind
          · have a : j ≠ s.size := by omega
            have a' : j' ≠ s.size := by omega
            simp only [upd, a, a', ↓reduceIte]
            have := h.nodup j j' hj2 hj2'
            grind
        · intro j j' m hj hj'
          rcases hlt j hj with rfl | hj2 <;> rcases hlt j' hj' with rfl | hj2'
          · simp only [upd, ↓reduceIte]
            intro hx
            have := hx.length_le
            simp at this
            omega
          · have a : j' ≠ s.size := by omega
            simp only [upd, a, ↓reduceIte]
            intro hx
            have hy : (num i :: (s.thr i).path) <:+ (s.thr j').path := by
              have : (num i :: (s.thr i).path) <:+ (m :: num i :: (s.thr i).path) := List.suffix_cons _ _
              refine this.trans ?_
              by_cases b : j' = i
              · simpa [b] using hx
              · simpa [b] using hx
            have := h.cnt i j' _ hi hj2' hy
            omega
          · have a : j ≠ s.size := by omega
            simp only [upd, a, ↓reduceIte]
            intro hx
            have hx' : (m :: (s.thr j).path) <:+ (num i :: (s.thr i).path) := by
              by_cases b : j = i
              · simpa [b] using hx
              · simpa [b] using hx
            rcases List.suffix_cons_iff.1 hx' with e | e
            · injection e with e1 e2
              have := h.nodup j i hj2 hi e2
              subst this
              simp only [↓reduceIte]
              omega
            · have := h.cnt j i m hj2 hi e
              split
              · subst_vars; omega
              · exact this
          · have a : j ≠ s.size := by omega
            have a' : j' ≠ s.size := by omega
            simp only [upd, a, a', ↓reduceIte]
            have := h.cnt j j' m hj2 hj2'
            grind
        · refine h.perm.trans ?_
          simp only
          refine List.Perm.append_left _ ?_
          rw [List.range_succ, List.flatMap_append]
          refine List.Perm.trans ?_ List.perm_append_comm
          refine flatMap_upd _ List.nodup_range i (List.mem_range.2 hi) _ _ _ ?_ ?_
          · simp only [upd, ↓reduceIte, hp, Prog.events, hne, List.flatMap_cons, List.flatMap_nil, List.append_nil]
          · intro j hl hj
            have : j ≠ s.size := by have := List.mem_range.1 hl; omega
            simp only [upd, hj, this, ↓reduceIte]
  · cases hs

end PBat.Pipe
