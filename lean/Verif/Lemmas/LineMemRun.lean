import Verif.Lemmas.LineMem
/-
The blocks of memory while lines are run.
-/
namespace PBat.Lm
open PBat.Spec.Lm

variable {j q : Prop}

theorem fine_block_any {b b' : Bool} {ls} (h : Fine j q b (.block ls)) : Fine j q b' (.block ls) := by
  cases h with
  | block h1 h2 => exact .block h1 h2

theorem fine_block_line {b : Bool} {ls : List Line} (h : Fine j q b (.block ls)) : ∀ l ∈ ls, FineLine j q l := by
  cases h with
  | block h1 h2 =>
    intro l hl b
    refine .block ?_ ?_
    · intro l' hl'; rw [List.mem_singleton] at hl'; subst hl'; exact h1 l' hl
    · intro l' hl'; rw [List.mem_singleton] at hl'; subst hl'; exact h2 l' hl

theorem fine_replace {a b b' : List Node} (h : FineNodes j q (a ++ b)) (hb : FineNodes j q b') (hs : shape b' = shape b) : FineNodes j q (a ++ b') := by
  induction a with
  | nil => exact hb
  | cons x a ih =>
    obtain ⟨h1, h2, h3⟩ := h
    refine ⟨h1, ?_, ih h3⟩
    intro y r hy ht
    cases a with
    | cons z a => cases hy; exact h2 _ _ rfl ht
    | nil =>
      have hy : b' = y :: r := hy
      subst hy
      cases b with
      | nil => simp [shape] at hs
      | cons z b =>
        simp only [shape, List.map_cons, List.cons.injEq, Prod.mk.injEq] at hs
        exact h2 z b rfl (hs.1.2.1 ▸ ht)

theorem shape_append (a b : List Node) : shape (a ++ b) = shape a ++ shape b := List.map_append

theorem fine_suffix {a b : List Node} (h : FineNodes j q (a ++ b)) : FineNodes j q b := by
  induction a with
  | nil => exact h
  | cons x a ih => exact ih h.2.2

/-- The node's command is changed. -/
theorem fine_change {nd : Node} {r : List Node} (h : FineNodes j q (nd :: r)) {c : Cmd} {str : Nat} (h1 : Fine j q true c)
    (h2 : Fine j q false c ∨ (nd.cmd.look = false ∧ (Fine j q false nd.cmd → Fine j q false c))) :
    FineNodes j q ({ nd with cmd := c, str := str } :: r) := by
  refine ⟨h1, fun x r' e ht => ⟨(h.2.1 x r' e ht).1, fun hl => ?_⟩, h.2.2⟩
  rcases h2 with h2 | ⟨h2, h3⟩
  · exact h2
  · exact h3 ((h.2.1 x r' e ht).2 (.inl h2))

theorem spec_make {src : Nat} {c : Cmd} {nd : Node} {A : Blocks} (hs : src ∈ ownN nd + A) :
    Spec q (ownN nd + A) (make src c nd) (fun n => ownN n + A) (fun n => ∃ s, n = { nd with cmd := c, str := s }) := by
  refine spec_alloc fun new => spec_use (by simp [Multiset.mem_add] at hs ⊢; tauto) (spec_use (by simp [ownN]) ?_)
  refine spec_free (R := {new} + ({nd.id} + ownO nd.strm + A)) (by simp only [ownN]; abel) (spec_pure ⟨new, rfl⟩ ?_)
  simp only [ownN]; abel

theorem spec_makeNew {src : Nat} {c : Cmd} {A : Blocks} (hs : src ∈ A) :
    Spec q A (makeNew src c) (fun n => own [n] + A) (fun n => n.cmd = c ∧ n.strm = none) := by
  refine spec_alloc fun new => spec_alloc fun id => spec_use (by simp [hs]) (spec_pure ⟨rfl, rfl⟩ ?_)
  simp only [own, ownN, ownO]; abel

theorem spec_dup {s : Strm} {A : Blocks} (hs : s.id ∈ A) : Spec q A (dup (some s)) (fun n => ownO (some n) + A) (fun _ => True) := by
  refine spec_use hs (spec_alloc fun id => spec_call (R := {id} + A) (spec_allocs _) (by simp) fun fs _ => spec_pure trivial ?_)
  simp only [ownO]; abel

theorem spec_useFiles {A : Blocks} (l : List Nat) (h : ∀ i ∈ l, i ∈ A) : Spec q A (useFiles l) (fun _ => A) (fun _ => True) := by
  induction l with
  | nil => exact spec_pure trivial rfl
  | cons i r ih => exact spec_use (h i (by simp)) (ih fun i hi => h i (by simp [hi]))

theorem spec_execOut {A : Blocks} (s : Option Strm) (h : ownO s ≤ A) : Spec q A (execOut s) (fun _ => A) (fun _ => True) := by
  cases s with
  | none => exact spec_pure trivial rfl
  | some s =>
    refine spec_use (Multiset.mem_of_le h (by simp [ownO])) (spec_useFiles s.files fun i hi => Multiset.mem_of_le h ?_)
    simp [ownO, hi]

theorem spec_test {A : Blocks} {str : Nat} (hs : str ∈ A) (c : Cond) (hq : q → c ≠ .unknown) : Spec q A (test str c) (fun _ => A) (fun _ => True) := by
  cases c with
  | word b => exact spec_pure trivial rfl
  | one b => exact spec_alloc fun a => spec_use (by simp [hs]) (spec_free rfl (spec_pure trivial rfl))
  | two b =>
    exact spec_alloc fun a => spec_use (by simp [hs]) (spec_alloc fun o => spec_use (by simp [hs]) (spec_free rfl (spec_free rfl (spec_pure trivial rfl))))
  | less => exact spec_pure trivial rfl
  | lessOne => exact spec_alloc fun a => spec_use (by simp [hs]) (spec_free rfl (spec_pure trivial rfl))
  | lessTwo =>
    exact spec_alloc fun a => spec_use (by simp [hs]) (spec_alloc fun o => spec_use (by simp [hs]) (spec_free rfl (spec_free rfl (spec_pure trivial rfl))))
  | unknown =>
    refine spec_alloc fun a => spec_use (by simp [hs]) (spec_alloc fun o => spec_use (by simp [hs]) (spec_free rfl ?_))
    exact spec_lose (L := {a}) (fun h => hq h rfl) (by intro s; simp [cost]; omega) rfl (spec_pure trivial rfl)

/-- What a command may rely on. -/
def Pre (j q : Prop) (line : List Node) (str : Nat) (c : Cmd) : Prop :=
  match line with
  | [] => Fine j q false c
  | nd :: _ => nd.str = str ∧ nd.cmd = c ∧ FineNodes j q line

def strOwn (line : List Node) (str : Nat) : Blocks :=
  match line with
  | [] => {str}
  | _ :: _ => 0

theorem pre_mem {line : List Node} {str : Nat} {c : Cmd} (h : Pre j q line str c) : str ∈ own line + strOwn line str := by
  cases line with
  | nil => simp [strOwn]
  | cons nd r => simp [Pre] at h; rw [← h.1]; simp [own, ownN]

theorem pre_fine {line : List Node} {str : Nat} {c : Cmd} (h : Pre j q line str c) : Fine j q (!line.isEmpty) c := by
  cases line with
  | nil => exact h
  | cons nd r => exact h.2.1 ▸ h.2.2.1

theorem pre_nodes {line : List Node} {str : Nat} {c : Cmd} (h : Pre j q line str c) : FineNodes j q line := by
  cases line with
  | nil => trivial
  | cons nd r => exact h.2.2

structure Runs (j q : Prop) (e : Env) (n : Nat) : Prop where
  line : ∀ l, FineLine j q l → Spec q 0 (runLine e n l) (fun _ => 0) (fun _ => True)
  nodes : ∀ ns, FineNodes j q ns → Spec q (own ns) (runNodes e n ns) own (fun ns' => shape ns' = shape ns ∧ FineNodes j q ns')
  pipes : ∀ before nd r, FineNodes j q (nd :: r) → nd.cmd.look = false ∨ nd.ty = .pipe → Spec q (own (before ++ nd :: r)) (pipes e n before nd r)
    (fun p => own (p.1 ++ p.2.1 :: p.2.2)) (fun p => p.1 ++ p.2.1 :: p.2.2 = before ++ nd :: r ∧ FineNodes j q (p.2.1 :: p.2.2))
  cmd : ∀ line str c, Pre j q line str c → Spec q (own line + strOwn line str) (runCmd e n line str c) (fun r => own r.1 + strOwn line str)
    (fun r => shape r.1 = shape line ∧ FineNodes j q r.1)
  lines : ∀ b l ls, (∀ x ∈ ls, FineLine j q x) → Spec q ({b} + {l}) (runLines e n b l ls) (fun _ => {b} + {l}) (fun _ => True)
  batch : ∀ l, Spec q {l} (runBatch e n l) (fun _ => {l}) (fun _ => True)
  loop : ∀ plain input es files left ns, FineNodes j q ns → (∀ x ∈ left, x ∈ files) → (q → files = []) →
    Spec q ({input} + {es} + (files : Blocks) + own ns) (runLoop e n plain input es files left ns) (fun ns' => {input} + {es} + own ns')
      (fun ns' => shape ns' = shape ns ∧ FineNodes j q ns')

theorem runs_zero (e : Env) : Runs j q e 0 where
  line _ _ := by unfold runLine; exact spec_deep
  nodes _ _ := by unfold runNodes; exact spec_deep
  pipes _ _ _ _ _ := by unfold pipes; exact spec_deep
  cmd _ _ _ _ := by unfold runCmd; exact spec_deep
  lines _ _ _ _ := by unfold runLines; exact spec_deep
  batch _ := by unfold runBatch; exact spec_deep
  loop _ _ _ _ _ _ _ _ _ := by unfold runLoop; exact spec_deep

theorem runs_line {e : Env} {n : Nat} (ih : Runs j q e n) (l : Line) (h : FineLine j q l) :
    Spec q 0 (runLine e (n + 1) l) (fun _ => 0) (fun _ => True) := by
  rw [runLine]
  refine spec_call (R := 0) (spec_parse h) (by simp) fun o ho => ?_
  cases o with
  | none => exact spec_pure trivial (by simp [ownR])
  | some ns =>
    exact spec_call (R := 0) (ih.nodes ns (ho ns rfl)) (by simp [ownR]) fun ns' _ => spec_freeAll.eq (by simp)

theorem runs_lines {e : Env} {n : Nat} (ih : Runs j q e n) (b l : Nat) (ls : List Line) (h : ∀ x ∈ ls, FineLine j q x) :
    Spec q ({b} + {l}) (runLines e (n + 1) b l ls) (fun _ => {b} + {l}) (fun _ => True) := by
  cases ls with
  | nil => rw [runLines]; exact spec_use1 (by simp)
  | cons x r =>
    rw [runLines]
    refine spec_use (by simp) (spec_use (by simp) (spec_call (R := {b} + {l}) (ih.line x (h x (by simp))) (by simp) fun _ _ => ?_))
    refine Spec.eq (A' := {b} + {l}) (spec_getAb fun ab => ?_) (by simp)
    split
    · exact ih.lines b l r fun x hx => h x (by simp [hx])
    · exact spec_pure trivial rfl

theorem runs_batch {e : Env} (he : FineEnv j q e) {n : Nat} (ih : Runs j q e n) (l : Nat) :
    Spec q {l} (runBatch e (n + 1) l) (fun _ => {l}) (fun _ => True) := by
  rw [runBatch]
  refine spec_use (by simp) (spec_ask fun t => ?_)
  cases hx : e.fetch t with
  | none => exact spec_pure trivial rfl
  | some x =>
    refine spec_use (by simp) (spec_call (R := {l}) (ih.line x (he.fetch t x hx)) (by simp) fun _ _ => ?_)
    refine Spec.eq (A' := {l}) (spec_getAb fun ab => ?_) (by simp)
    split
    · exact spec_pure trivial rfl
    · exact spec_setAb (ih.batch l)

theorem runs_loop {e : Env} (he : FineEnv j q e) {n : Nat} (ih : Runs j q e n) (plain : Bool) (input es : Nat) (files left : List Nat) (ns : List Node)
    (hn : FineNodes j q ns) (hl : ∀ x ∈ left, x ∈ files) (hq : q → files = []) :
    Spec q ({input} + {es} + (files : Blocks) + own ns) (runLoop e (n + 1) plain input es files left ns) (fun ns' => {input} + {es} + own ns')
      (fun ns' => shape ns' = shape ns ∧ FineNodes j q ns') := by
  cases files with
  | nil =>
    rw [runLoop]
    refine spec_use (by simp) (spec_ask fun t => ?_)
    cases hi : e.item t with
    | stop => exact spec_pure ⟨rfl, hn⟩ (by simp)
    | found k =>
      dsimp only
      split
      · refine spec_call (R := {input} + {es} + own ns) (spec_allocs k) (by simp) fun fs _ => ?_
        refine (ih.loop plain input es fs fs ns hn (fun _ h => h) (fun h => absurd hi (he.item h t k))).eq (by abel)
      · exact spec_pure ⟨rfl, hn⟩ (by simp)
    | text =>
      refine spec_use (by simp) (spec_call (R := {input} + {es}) (ih.nodes ns hn) (by rw [Multiset.coe_nil]; abel) fun ns' hns => spec_getAb fun ab => ?_)
      split
      · exact spec_pure hns (by abel)
      · exact ((ih.loop plain input es [] [] ns' hns.2 (by simp) (fun _ => rfl)).eq (by rw [Multiset.coe_nil]; abel)).weaken
          fun a ha => ⟨rfl, ha.1.trans hns.1, ha.2⟩
  | cons f fs =>
    cases left with
    | nil =>
      rw [runLoop]
      refine spec_call (R := {input} + {es} + own ns) (spec_frees (f :: fs)) (by abel) fun _ _ => ?_
      exact (ih.loop plain input es [] [] ns hn (by simp) (fun _ => rfl)).eq (by simp)
    | cons x left =>
      rw [runLoop]
      refine spec_use ?_ (spec_use (by simp) ?_)
      · have := hl x (by simp)
        rw [Multiset.mem_add, Multiset.mem_add]
        exact .inl (.inr (by simpa using this))
      · refine spec_call (R := {input} + {es} + ((f :: fs : List Nat) : Blocks)) (ih.nodes ns hn) (by abel) fun ns' hns => spec_getAb fun ab => ?_
        split
        · exact spec_lose (L := ((f :: fs : List Nat) : Blocks)) (R := {input} + {es} + own ns') (fun h => by have := hq h; cases this)
            (by intro s; simp [cost]; omega) (by abel) (spec_pure hns rfl)
        · exact ((ih.loop plain input es (f :: fs) left ns' hns.2 (fun y hy => hl y (by simp [hy])) hq).eq (by abel)).weaken
            fun a ha => ⟨rfl, ha.1.trans hns.1, ha.2⟩

theorem runs_pipes {e : Env} {n : Nat} (ih : Runs j q e n) (before : List Node) (nd : Node) (r : List Node) (h : FineNodes j q (nd :: r))
    (hk : nd.cmd.look = false ∨ nd.ty = .pipe) : Spec q (own (before ++ nd :: r)) (pipes e (n + 1) before nd r)
    (fun p => own (p.1 ++ p.2.1 :: p.2.2)) (fun p => p.1 ++ p.2.1 :: p.2.2 = before ++ nd :: r ∧ FineNodes j q (p.2.1 :: p.2.2)) := by
  cases r with
  | nil => rw [pipes]; exact spec_pure ⟨rfl, h⟩ rfl
  | cons nx r =>
    rw [pipes]
    split
    · rename_i ht
      obtain ⟨g1, g2⟩ := h.2.1 nx r rfl ht
      obtain ⟨s, hs⟩ := Option.isSome_iff_exists.1 g1
      refine spec_alloc fun infos => spec_alloc fun str => spec_use ?_ ?_
      · rw [own_append]; simp [own, ownN]
      · rw [hs]
        refine spec_call (R := 0) (spec_dup (A := {str} + ({infos} + own (before ++ nd :: nx :: r))) ?_) (by simp) fun st _ => ?_
        · rw [own_append]; simp [own, ownN, hs, ownO]
        · refine spec_call (A1 := ownO (some st) + {str} + {infos}) (R := own (before ++ nd :: nx :: r)) (spec_thread (P := fun _ => True) ?_) (by abel)
            fun _ _ => spec_use (by rw [own_append]; simp [own, ownN]) ?_
          · refine spec_use (by simp) ?_
            refine spec_call (R := 0) (spec_execOut (some st) (A := ownO (some st) + {str} + {infos}) ?_) (by simp) fun _ _ => ?_
            · rw [add_assoc]; exact Multiset.le_add_right _ _
            · refine spec_call (R := ownO (some st) + {infos}) (ih.cmd [] str nd.cmd (g2 hk)) (by simp only [own, strOwn]; abel) fun x hx => ?_
              have hx : x.1 = [] := by
                have := hx.1
                simpa [shape] using this
              refine spec_call (R := {str} + {infos}) (spec_freeStream st) (by simp only [hx, own, strOwn]; abel) fun _ _ => ?_
              refine spec_free (R := {infos}) (by abel) ?_
              exact spec_free1
          · exact ((ih.pipes (before ++ [nd]) nx r h.2.2 (.inr ht)).eq (by simp)).weaken fun a ha => ⟨rfl, by simpa using ha.1, ha.2⟩
    · exact spec_pure ⟨rfl, h⟩ rfl

theorem spec_skipped {A : Blocks} (e : Env) (t : Ty) : Spec q A (skipped e t) (fun _ => A) (fun _ => True) := by
  cases t with
  | none => exact spec_pure trivial rfl
  | pipe => exact spec_pure trivial rfl
  | yes => exact spec_ask1.weaken fun _ _ => ⟨rfl, trivial⟩
  | not => exact spec_ask1.weaken fun _ _ => ⟨rfl, trivial⟩

theorem runs_nodes {e : Env} {n : Nat} (ih : Runs j q e n) (ns : List Node) (h : FineNodes j q ns) :
    Spec q (own ns) (runNodes e (n + 1) ns) own (fun ns' => shape ns' = shape ns ∧ FineNodes j q ns') := by
  cases ns with
  | nil => rw [runNodes]; exact spec_pure ⟨rfl, h⟩ rfl
  | cons nd r =>
    rw [runNodes]
    refine spec_use (mem_id _ _) (spec_use (mem_str _ _) ?_)
    refine spec_call (A1 := own (nd :: r)) (R := 0) (spec_skipped e nd.ty) (by simp) fun skip _ => ?_
    refine spec_call (A1 := own (nd :: r)) (R := 0) (B := fun p => own (p.1 ++ p.2.1 :: p.2.2))
      (P := fun p => p.1 ++ p.2.1 :: p.2.2 = nd :: r ∧ FineNodes j q (p.2.1 :: p.2.2)) ?_ (by simp) fun p hp => ?_
    · split
      · exact spec_pure ⟨rfl, h⟩ rfl
      · rename_i hc
        refine ih.pipes [] nd r h (.inl ?_)
        cases hk : nd.cmd.look
        · rfl
        · simp [hk] at hc
    · obtain ⟨a, x, b⟩ := p
      obtain ⟨hp1, hp2⟩ := hp
      dsimp only at hp1 hp2 ⊢
      have hf : FineNodes j q (a ++ x :: b) := hp1 ▸ h
      have tail : ∀ (y : Node) (c : List Node), shape (y :: c) = shape (x :: b) → FineNodes j q (y :: c) →
          Spec q (own (a ++ y :: c)) (do let r'' ← runNodes e n c; pure (a ++ y :: r'')) own (fun ns' => shape ns' = shape (nd :: r) ∧ FineNodes j q ns') := by
        intro y c hs hy
        refine spec_call (R := own a + ownN y) (ih.nodes c hy.2.2) (by rw [own_append]; simp only [own]; abel) fun c' hc => ?_
        have hs' : shape (a ++ y :: c') = shape (nd :: r) := by
          have : shape (y :: c') = shape (x :: b) := by rw [← hs]; simpa [shape] using hc.1
          rw [shape_append, this, ← shape_append, hp1]
        refine spec_pure ⟨hs', ?_⟩ (by rw [own_append]; simp only [own]; abel)
        refine fine_replace hf ?_ (by rw [← hs]; simpa [shape] using hc.1)
        exact fine_replace (a := [y]) hy hc.2 hc.1
      have rest : Spec q (own (a ++ x :: b)) (do
          let q ← runCmd e n (x :: b) x.str x.cmd
          match q.1 with
          | [] => pure a
          | nd' :: r' =>
            if q.2 then do
              use nd'.id
              if nd.cmd.look then pure (a ++ nd' :: r')
              else do
                let r'' ← runNodes e n r'
                pure (a ++ nd' :: r'')
            else pure (a ++ nd' :: r')) own (fun ns' => shape ns' = shape (nd :: r) ∧ FineNodes j q ns') := by
        refine spec_call (R := own a) (ih.cmd (x :: b) x.str x.cmd ⟨rfl, rfl, hp2⟩) (by rw [own_append]; simp only [strOwn]; abel) fun c hc => ?_
        obtain ⟨cs, go⟩ := c
        dsimp only at hc ⊢
        cases cs with
        | nil => exact absurd hc.1 (by simp [shape])
        | cons y cs =>
          have hy : FineNodes j q (a ++ y :: cs) := fine_replace hf hc.2 hc.1
          have hsh : shape (a ++ y :: cs) = shape (nd :: r) := by rw [shape_append, hc.1, ← shape_append, hp1]
          refine Spec.eq (A' := own (a ++ y :: cs)) ?_ (by rw [own_append]; simp only [strOwn]; abel)
          dsimp only
          split
          · refine spec_use (by rw [own_append]; simp [own, ownN]) ?_
            split
            · exact spec_pure ⟨hsh, hy⟩ rfl
            · exact tail y cs hc.1 hc.2
          · exact spec_pure ⟨hsh, hy⟩ rfl
      refine Spec.eq (A' := own (a ++ x :: b)) (spec_getAb fun ab => ?_) (by simp)
      split
      · exact spec_pure ⟨by rw [hp1], hf⟩ rfl
      · split
        · split
          · exact spec_pure ⟨by rw [hp1], hf⟩ rfl
          · exact tail x b rfl hp2
        · cases hk : nd.cmd.look with
          | true =>
            simp only [hk, if_true] at rest ⊢
            exact rest
          | false =>
            simp only [hk, Bool.false_eq_true, if_false] at rest ⊢
            refine spec_call (A1 := own (a ++ x :: b)) (R := 0) (spec_execOut x.strm ?_) (add_zero _).symm fun _ _ => rest.eq (add_zero _)
            rw [own_append]
            refine le_trans ?_ (Multiset.le_add_left _ _)
            refine le_trans ?_ (Multiset.le_add_right _ _)
            exact Multiset.le_add_left _ _

theorem shape_change (nd : Node) (r : List Node) (c : Cmd) (s : Nat) : shape ({ nd with cmd := c, str := s } :: r) = shape (nd :: r) := rfl

theorem fineNodes_one {nd : Node} (h : Fine j q true nd.cmd) : FineNodes j q [nd] := ⟨h, (fun _ _ e => by cases e), trivial⟩

/-- IF runs a command of its own line. -/
theorem runs_branch {e : Env} {n : Nat} (ih : Runs j q e n) (nd : Node) (r : List Node) (ls : List Line) (h : FineNodes j q (nd :: r))
    (hb : ∀ b, Fine j q b (.block ls)) (str : Nat) (hs : str ∈ own (nd :: r)) :
    Spec q (own (nd :: r)) (do let nd' ← make str (.block ls) nd; let ns ← runNodes e n (nd' :: r); pure (ns, false)) (fun x => own x.1)
      (fun x => shape x.1 = shape (nd :: r) ∧ FineNodes j q x.1) := by
  refine spec_call (R := 0) (spec_make (c := .block ls) (nd := nd) (A := own r) hs) (by simp [own]) fun nd' hn => ?_
  obtain ⟨s, rfl⟩ := hn
  refine spec_call (R := 0) (ih.nodes _ (fine_change h (hb true) (.inl (hb false)))) (by simp [own]) fun ns hns => ?_
  exact spec_pure hns (by simp)

/-- IF runs a command without a line. -/
theorem runs_alone {e : Env} {n : Nat} (ih : Runs j q e n) (ls : List Line) (hb : ∀ b, Fine j q b (.block ls)) (str : Nat) :
    Spec q {str} (do let nd' ← makeNew str (.block ls); let ns ← runNodes e n [nd']; freeNodes none ns; pure (([] : List Node), false))
      (fun _ => {str}) (fun x => x.1 = []) := by
  refine spec_call (R := 0) (spec_makeNew (c := .block ls) (A := {str}) (by simp)) (by simp) fun nd' hn => ?_
  refine spec_call (R := {str}) (ih.nodes [nd'] (fineNodes_one (hn.1 ▸ hb true))) (by simp) fun ns hns => ?_
  refine spec_call (R := {str}) (spec_freeAll (ns := ns)) rfl fun _ _ => ?_
  exact spec_pure rfl (by simp)

theorem runs_cmd {e : Env} (he : FineEnv j q e) {n : Nat} (ih : Runs j q e n) (line : List Node) (str : Nat) (c : Cmd) (h : Pre j q line str c) :
    Spec q (own line + strOwn line str) (runCmd e (n + 1) line str c) (fun r => own r.1 + strOwn line str)
      (fun r => shape r.1 = shape line ∧ FineNodes j q r.1) := by
  have hm := pre_mem h
  have hf := pre_fine h
  have hn := pre_nodes h
  have keep : ∀ b : Bool, Spec q (own line + strOwn line str) (pure (line, b) : M (List Node × Bool)) (fun r => own r.1 + strOwn line str)
      (fun r => shape r.1 = shape line ∧ FineNodes j q r.1) := fun b => spec_pure ⟨rfl, hn⟩ rfl
  generalize hA : own line + strOwn line str = A at hm keep
  cases c with
  | simple =>
    rw [runCmd]
    refine spec_use hm (spec_ask fun t => ?_)
    split
    · rename_i hx
      exact spec_exit fun hq => by simp [he.exits hq t] at hx
    · exact spec_ask fun t => spec_setAb (spec_use hm (keep true))
  | block ls =>
    rw [runCmd]
    refine spec_use hm (spec_alloc fun top => spec_alloc fun l => spec_alloc fun b => spec_use (by simp [hm]) ?_)
    refine spec_call (R := {top} + A) (ih.lines b l ls (fine_block_line hf)) (by abel) fun _ _ => ?_
    refine spec_free (R := {b} + {top} + A) (by abel) (spec_free (R := {top} + A) (by abel) (spec_free rfl (keep true)))
  | «macro» c =>
    rw [runCmd.eq_def]; dsimp only
    refine spec_use hm (spec_alloc fun r => spec_alloc fun p => spec_use (by simp [hm]) ?_)
    refine spec_free (R := {p} + A) (by abel) (spec_free rfl (spec_alloc fun vars => ?_))
    subst hA
    cases line with
    | nil =>
      have hc : Fine j q false c := by cases h with | «macro» h => exact h
      refine spec_call (R := {vars}) (ih.cmd [] str c hc) (by simp only [own]; abel) fun x hx => ?_
      exact spec_free (R := own x.1 + strOwn [] str) (by abel) (spec_pure hx rfl)
    | cons nd r =>
      obtain ⟨g1, g2, g3⟩ := h
      have hc : Fine j q true c := by cases hf with | «macro» h => exact h
      have hn' : FineNodes j q ({ nd with cmd := c } :: r) :=
        fine_change (str := nd.str) g3 hc (.inr ⟨by rw [g2]; rfl, fun h => by rw [g2] at h; cases h with | «macro» h => exact h⟩)
      refine spec_call (R := {vars}) (ih.cmd ({ nd with cmd := c } :: r) str c ⟨g1, rfl, hn'⟩) (by simp only [own, ownN, strOwn]; abel) fun x hx => ?_
      exact spec_free (R := own x.1 + strOwn (nd :: r) str) (by simp only [strOwn]; abel) (spec_pure hx rfl)
  | xargs c =>
    rw [runCmd]
    have hc : Fine j q false c := by cases hf with | xargs h => exact h
    refine spec_use hm (spec_alloc fun p => spec_alloc fun s => spec_use (by simp [hm]) ?_)
    refine spec_call (R := {p} + A) (ih.cmd [] s c hc) (by simp only [own, strOwn]; abel) fun x hx => ?_
    have hx : x.1 = [] := by simpa [shape] using hx.1
    exact spec_free (R := {p} + A) (by simp only [hx, own, strOwn]; abel) (spec_free rfl (keep true))
  | call =>
    rw [runCmd]
    refine spec_use hm (spec_alloc fun l => ?_)
    exact spec_call (R := A) (ih.batch l) rfl fun _ _ => spec_setAb (spec_free rfl (keep true))
  | iff yes no =>
    rw [runCmd.eq_def]; dsimp only
    obtain ⟨f1, f2, f3⟩ : (q → (!line.isEmpty) = true → no = none) ∧ (∀ b, Fine j q b (.block yes)) ∧
        (∀ no', no = some no' → ∀ b, Fine j q b (.block no')) := by
      cases hf with | iff a b c => exact ⟨a, b, c⟩
    refine spec_use hm (spec_ask fun t => ?_)
    refine spec_call (R := 0) (spec_test hm (e.cond t) fun hq => he.cond hq t) (by simp) fun t _ => Spec.eq (A' := A) ?_ (by simp)
    cases t with
    | inr quit => exact keep _
    | inl t =>
      subst hA
      cases t with
      | true =>
        cases line with
        | nil =>
          exact ((runs_alone ih yes f2 str).eq (by simp [own, strOwn])).weaken fun x hx => ⟨by simp [hx, own, strOwn], by simp [hx], by simp [hx, FineNodes]⟩
        | cons nd r =>
          cases no with
          | none =>
            exact ((runs_branch ih nd r yes hn f2 str (by simpa [strOwn] using hm)).eq (by simp [strOwn])).weaken fun x hx => ⟨by simp [strOwn], hx⟩
          | some no =>
            refine spec_call (R := 0) (spec_makeNew (c := .block yes) hm) (by simp) fun nd' hn' => ?_
            refine spec_call (R := own (nd :: r) + strOwn (nd :: r) str) (ih.nodes [nd'] (fineNodes_one (hn'.1 ▸ f2 true))) (by simp) fun ns hns => ?_
            have hns1 : (own ns).card = 2 := by
              have := hns.1
              cases ns with
              | nil => simp [shape] at this
              | cons x ns =>
                cases ns with
                | nil =>
                  simp only [shape, List.map_cons, List.map_nil, List.cons.injEq, Prod.mk.injEq, and_true] at this
                  simp [own, ownN, this.2.2, hn'.2, ownO]
                | cons => simp [shape] at this
            refine spec_lose (L := own ns) (R := own (nd :: r) + strOwn (nd :: r) str) (fun hq => by have := f1 hq rfl; cases this) ?_ rfl (keep false)
            intro s
            simp [cost, hns1]; omega
      | false =>
        cases line with
        | nil =>
          cases no with
          | none => exact keep false
          | some no =>
            exact ((runs_alone ih no (f3 no rfl) str).eq (by simp [own, strOwn])).weaken
              fun x hx => ⟨by simp [hx, own, strOwn], by simp [hx], by simp [hx, FineNodes]⟩
        | cons nd r =>
          cases no with
          | none => exact keep false
          | some no =>
            exact ((runs_branch ih nd r no hn (f3 no rfl) str (by simpa [strOwn] using hm)).eq (by simp [strOwn])).weaken fun x hx => ⟨by simp [strOwn], hx⟩
  | loop plain body =>
    rw [runCmd]
    obtain ⟨f1, f2⟩ : ((!line.isEmpty) = false → j ∧ ¬ q) ∧ (∀ b, Fine j q b (.block body)) := by
      cases hf with | loop a b => exact ⟨a, b⟩
    refine spec_use hm (spec_alloc fun p => spec_alloc fun d => spec_alloc fun i => spec_use (by simp [hm]) (spec_ask fun t => ?_))
    split
    · subst hA
      cases line with
      | nil =>
        obtain ⟨hj, hq⟩ := f1 rfl
        refine spec_call (R := 0) (spec_makeNew (c := .block body) (A := {i} + ({d} + ({p} + (own [] + strOwn [] str)))) (by simp [strOwn])) (by simp) fun nd' hn' => ?_
        refine spec_alloc fun es => ?_
        refine spec_call (R := {d} + {p} + strOwn [] str) (ih.loop plain i es [] [] [nd'] (fineNodes_one (hn'.1 ▸ f2 true)) (by simp) (fun _ => rfl))
          (by rw [Multiset.coe_nil]; simp only [own]; abel) fun ns hns => ?_
        obtain ⟨x, rfl, hx1, hx2⟩ : ∃ x, ns = [x] ∧ x.id = nd'.id ∧ x.strm = none := by
          have := hns.1
          cases ns with
          | nil => simp [shape] at this
          | cons x ns =>
            cases ns with
            | nil =>
              simp only [shape, List.map_cons, List.map_nil, List.cons.injEq, Prod.mk.injEq, and_true] at this
              exact ⟨x, rfl, this.1, this.2.2.trans hn'.2⟩
            | cons => simp [shape] at this
        refine spec_free (R := {i} + own [x] + ({d} + {p} + strOwn [] str)) (by abel) ?_
        refine spec_free (R := {i} + own [x] + ({d} + strOwn [] str)) (by abel) ?_
        refine spec_free (R := {i} + own [x] + strOwn [] str) (by abel) ?_
        refine spec_free (R := own [x] + strOwn [] str) (by abel) ?_
        refine spec_use (by simp [own, ownN, hx1]) (spec_ask fun t => ?_)
        rw [he.junk hj t]
        refine spec_free (R := {x.str} + strOwn [] str) (by simp only [own, ownN, hx1, hx2, ownO]; abel) ?_
        exact spec_lose (L := {x.str}) hq (by intro s; simp [cost]; omega) rfl (spec_pure ⟨rfl, trivial⟩ (by simp [own]))
      | cons nd r =>
        refine spec_call (R := 0) (spec_make (c := .block body) (nd := nd) (A := own r + ({i} + ({d} + {p}))) ?_) ?_ fun nd' hn' => ?_
        · rw [← add_assoc]; exact Multiset.mem_add.2 (.inl (by simpa [strOwn, own] using hm))
        · simp only [own, strOwn]; abel
        · obtain ⟨s, rfl⟩ := hn'
          refine spec_alloc fun es => ?_
          refine spec_call (R := {d} + {p}) (ih.loop plain i es [] [] _ (fine_change hn (f2 true) (.inl (f2 false))) (by simp) (fun _ => rfl))
            (by rw [Multiset.coe_nil]; simp only [own]; abel) fun ns hns => ?_
          refine spec_free (R := {i} + own ns + ({d} + {p})) (by abel) ?_
          refine spec_free (R := {i} + own ns + {d}) (by abel) ?_
          refine spec_free (R := {i} + own ns) (by abel) ?_
          exact spec_free (R := own ns) rfl (spec_pure hns (by simp [strOwn]))
    · exact spec_free (R := {i} + {d} + A) (by abel) (spec_free (R := {i} + A) (by abel) (spec_free rfl (keep false)))

theorem runs {e : Env} (he : FineEnv j q e) : ∀ n, Runs j q e n
  | 0 => runs_zero e
  | n + 1 =>
    have ih := runs he n
    { line := runs_line ih
      nodes := runs_nodes ih
      pipes := runs_pipes ih
      cmd := runs_cmd he ih
      lines := runs_lines ih
      batch := runs_batch he ih
      loop := runs_loop he ih }

end PBat.Lm
