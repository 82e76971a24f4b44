import Verif.Spec.LineMem
import Mathlib.Algebra.Order.Group.Multiset
import Mathlib.Tactic.Abel
/-
A small logic of the blocks that code owns: it takes the blocks `A`, ends with the blocks `B`, and leaves all others alone.
-/
namespace PBat.Lm
open PBat.Spec.Lm

abbrev Blocks := Multiset Nat

def Post {α : Type} (q : Prop) (B : α → Blocks) (P : α → Prop) (s : St) (F : Blocks) : Out α → Prop
  | .done a s' => P a ∧ s.gones ≤ s'.gones ∧
      (∃ lost : Blocks, (s'.live : Blocks) = B a + lost + F ∧ (s'.gones = s.gones → lost.card + cost s = cost s')) ∧
      (q → cost s' = cost s ∧ s'.gones = s.gones)
  | .gone s' => ¬ q ∧ s.gones ≤ s'.gones ∧ ∃ rest : Blocks, (s'.live : Blocks) = rest + F
  | .ub => False
  | .fuel => True

/-- With the blocks `A` and any others, the code ends with the blocks `B`, those lost, and the others; the value satisfies `P`. -/
def Spec {α : Type} (q : Prop) (A : Blocks) (m : M α) (B : α → Blocks) (P : α → Prop) : Prop :=
  ∀ s (F : Blocks), (s.live : Blocks) = A + F → Post q B P s F (m s)

variable {q : Prop} {α β : Type}

theorem Spec.eq {A A' : Blocks} {m : M α} {B P} (h : Spec q A' m B P) (he : A = A') : Spec q A m B P := he ▸ h

theorem Spec.weaken {A : Blocks} {m : M α} {B B' : α → Blocks} {P P' : α → Prop} (h : Spec q A m B P) (hp : ∀ a, P a → B' a = B a ∧ P' a) :
    Spec q A m B' P' := by
  intro s F hs
  have := h s F hs
  generalize m s = o at this
  cases o with
  | done a s' =>
    obtain ⟨h1, h2, ⟨l, h3, h4⟩, h5⟩ := this
    obtain ⟨e, h6⟩ := hp a h1
    exact ⟨h6, h2, ⟨l, by rw [e]; exact h3, h4⟩, h5⟩
  | gone s' => exact this
  | ub => exact this
  | fuel => trivial

theorem spec_pure {A : Blocks} {a : α} {B : α → Blocks} {P : α → Prop} (hp : P a) (he : A = B a) : Spec q A (pure a : M α) B P := by
  intro s F hs
  exact ⟨hp, Nat.le_refl _, ⟨0, by rw [hs, he, add_zero], fun _ => by simp⟩, fun _ => ⟨rfl, rfl⟩⟩

theorem spec_deep {A : Blocks} {B : α → Blocks} {P : α → Prop} : Spec q A (deep : M α) B P := fun _ _ _ => trivial

theorem spec_call {A A1 R : Blocks} {m : M α} {f : α → M β} {B P C Q} (h1 : Spec q A1 m B P) (he : A = A1 + R)
    (h2 : ∀ a, P a → Spec q (B a + R) (f a) C Q) : Spec q A (m >>= f) C Q := by
  intro s F hs
  have k1 := h1 s (R + F) (by rw [hs, he, add_assoc])
  show Post q C Q s F (M.andThen m f s)
  unfold M.andThen
  generalize m s = o at k1
  cases o with
  | done a s' =>
    obtain ⟨h1, h3, ⟨l, h4, h5⟩, h6⟩ := k1
    have k2 := h2 a h1 s' (l + F) (by rw [h4]; abel)
    dsimp only
    generalize f a s' = o2 at k2
    cases o2 with
    | done b s'' =>
      obtain ⟨g1, g3, ⟨l2, g4, g5⟩, g6⟩ := k2
      refine ⟨g1, by omega, ⟨l2 + l, by rw [g4]; abel, fun hg => ?_⟩, fun hq => ?_⟩
      · have e1 := h5 (by omega)
        have e2 := g5 (by omega)
        rw [Multiset.card_add]; omega
      · have e1 := h6 hq
        have e2 := g6 hq
        omega
    | gone s'' =>
      obtain ⟨g1, g2, r, g3⟩ := k2
      exact ⟨g1, by omega, r + l, by rw [g3]; abel⟩
    | ub => exact k2
    | fuel => trivial
  | gone s' =>
    obtain ⟨g1, g2, r, g3⟩ := k1
    exact ⟨g1, g2, r + R, by rw [g3]; abel⟩
  | ub => exact k1
  | fuel => trivial

theorem spec_alloc1 : Spec q 0 alloc (fun i => {i}) (fun _ => True) := by
  intro s F hs
  refine ⟨trivial, Nat.le_refl _, ⟨0, ?_, fun _ => by simp [cost]⟩, fun _ => ⟨rfl, rfl⟩⟩
  show ((s.next :: s.live : List Nat) : Blocks) = _
  rw [← Multiset.cons_coe, hs]
  simp

theorem spec_alloc {A : Blocks} {f : Nat → M β} {C Q} (h : ∀ i, Spec q ({i} + A) (f i) C Q) : Spec q A (alloc >>= f) C Q :=
  spec_call spec_alloc1 (by simp) (fun i _ => h i)

theorem spec_free1 {i : Nat} : Spec q {i} (free i) (fun _ => 0) (fun _ => True) := by
  intro s F hs
  have hi : i ∈ s.live := by
    have : i ∈ (s.live : Blocks) := by rw [hs]; simp
    simpa using this
  unfold free
  rw [if_pos hi]
  refine ⟨trivial, Nat.le_refl _, ⟨0, ?_, fun _ => by simp [cost]⟩, fun _ => ⟨rfl, rfl⟩⟩
  show ((s.live.erase i : List Nat) : Blocks) = _
  rw [← Multiset.coe_erase, hs]
  simp

theorem spec_free {A R : Blocks} {i : Nat} {f : Unit → M β} {C Q} (he : A = {i} + R) (h : Spec q R (f ()) C Q) : Spec q A (free i >>= f) C Q :=
  spec_call spec_free1 he (fun _ _ => h.eq (by simp))

theorem spec_use1 {A : Blocks} {i : Nat} (hi : i ∈ A) : Spec q A (use i) (fun _ => A) (fun _ => True) := by
  intro s F hs
  have hi : i ∈ s.live := by
    have : i ∈ (s.live : Blocks) := by rw [hs]; simp [hi]
    simpa using this
  unfold use
  rw [if_pos hi]
  exact ⟨trivial, Nat.le_refl _, ⟨0, by rw [hs]; simp, fun _ => by simp⟩, fun _ => ⟨rfl, rfl⟩⟩

theorem spec_use {A : Blocks} {i : Nat} {f : Unit → M β} {C Q} (hi : i ∈ A) (h : Spec q A (f ()) C Q) : Spec q A (use i >>= f) C Q :=
  spec_call (R := 0) (spec_use1 hi) (by simp) (fun _ _ => h.eq (by simp))

theorem spec_ask1 {A : Blocks} {f : Nat → α} : Spec q A (ask f) (fun _ => A) (fun a => ∃ t, a = f t) := by
  intro s F hs
  exact ⟨⟨_, rfl⟩, Nat.le_refl _, ⟨0, by show (s.live : Blocks) = _; rw [hs]; simp, fun _ => by simp [cost]⟩, fun _ => ⟨rfl, rfl⟩⟩

theorem spec_ask {A : Blocks} {g : Nat → α} {f : α → M β} {C Q} (h : ∀ t, Spec q A (f (g t)) C Q) : Spec q A (ask g >>= f) C Q :=
  spec_call (A1 := A) (R := 0) spec_ask1 (by simp) (fun a ha => by obtain ⟨t, rfl⟩ := ha; exact (h t).eq (by simp))

theorem spec_getAb {A : Blocks} {f : Abort → M β} {C Q} (h : ∀ a, Spec q A (f a) C Q) : Spec q A (getAb >>= f) C Q := by
  refine spec_call (A1 := A) (R := 0) (B := fun _ => A) (P := fun _ => True) ?_ (by simp) (fun a _ => (h a).eq (by simp))
  intro s F hs
  exact ⟨trivial, Nat.le_refl _, ⟨0, by rw [hs]; simp, fun _ => by simp⟩, fun _ => ⟨rfl, rfl⟩⟩

theorem spec_setAb {A : Blocks} {b : Abort} {f : Unit → M β} {C Q} (h : Spec q A (f ()) C Q) : Spec q A (setAb b >>= f) C Q := by
  refine spec_call (A1 := A) (R := 0) (B := fun _ => A) (P := fun _ => True) ?_ (by simp) (fun a _ => h.eq (by simp))
  intro s F hs
  exact ⟨trivial, Nat.le_refl _, ⟨0, by show (s.live : Blocks) = _; rw [hs]; simp, fun _ => by simp [cost]⟩, fun _ => ⟨rfl, rfl⟩⟩

theorem spec_exit {A : Blocks} {B : α → Blocks} {P : α → Prop} (hq : ¬ q) : Spec q A (exit_ : M α) B P :=
  fun _ _ hs => ⟨hq, Nat.le_refl _, A, hs⟩

theorem spec_lose {A R L : Blocks} {g : St → St} {f : Unit → M β} {C Q} (hq : ¬ q)
    (hc : ∀ s : St, 2 * (g s).elses + (g s).unknowns + (g s).bares + (g s).lefts = cost s + L.card) (he : A = L + R) (h : Spec q R (f ()) C Q) :
    Spec q A (record g >>= f) C Q := by
  refine spec_call (A1 := L) (B := fun _ => 0) (P := fun _ => True) ?_ he (fun a _ => h.eq (by simp))
  intro s F hs
  refine ⟨trivial, Nat.le_refl _, ⟨L, by show (s.live : Blocks) = _; rw [hs]; simp, fun _ => ?_⟩, fun h => absurd h hq⟩
  show _ = 2 * (g s).elses + (g s).unknowns + (g s).bares + (g s).lefts
  rw [hc]; omega

theorem spec_thread {A : Blocks} {m : M Unit} {P : Unit → Prop} (h : Spec q A m (fun _ => 0) P) : Spec q A (thread m) (fun _ => 0) (fun _ => True) := by
  intro s F hs
  have k := h s F hs
  unfold thread
  generalize m s = o at k
  cases o with
  | done a s' =>
    obtain ⟨h1, h3, ⟨l, h4, h5⟩, h6⟩ := k
    exact ⟨trivial, h3, ⟨l, h4, h5⟩, h6⟩
  | gone s' =>
    obtain ⟨g1, g2, r, g3⟩ := k
    exact ⟨trivial, by show s.gones ≤ s'.gones + 1; omega, ⟨r, by rw [zero_add]; exact g3,
      fun h => by change s'.gones + 1 = s.gones at h; omega⟩, fun h => absurd h g1⟩
  | ub => exact k
  | fuel => trivial

/-! ### What structures own -/

def ownO : Option Strm → Blocks
  | none => 0
  | some s => {s.id} + (s.files : Blocks)

def ownN (n : Node) : Blocks := {n.id} + {n.str} + ownO n.strm

def own : List Node → Blocks
  | [] => 0
  | n :: r => ownN n + own r

def ownL : Option Nat → Blocks
  | none => 0
  | some i => {i}

theorem own_append (a b : List Node) : own (a ++ b) = own a + own b := by
  induction a with
  | nil => simp [own]
  | cons x a ih => simp only [List.cons_append, own, ih]; abel

theorem mem_id (n : Node) (r : List Node) : n.id ∈ own (n :: r) := by simp [own, ownN]
theorem mem_str (n : Node) (r : List Node) : n.str ∈ own (n :: r) := by simp [own, ownN]

theorem spec_frees (l : List Nat) : Spec q (l : Blocks) (frees l) (fun _ => 0) (fun _ => True) := by
  induction l with
  | nil => exact spec_pure trivial rfl
  | cons i r ih => exact spec_free (R := (r : Blocks)) (by rw [← Multiset.cons_coe]; simp) ih

theorem spec_allocs (n : Nat) : Spec q 0 (allocs n) (fun l => (l : Blocks)) (fun l => l.length = n) := by
  induction n with
  | zero => exact spec_pure rfl rfl
  | succ n ih =>
    refine spec_alloc fun i => spec_call ih (add_comm _ _) fun r hr => spec_pure (by simp [hr]) ?_
    rw [← Multiset.cons_coe, ← Multiset.singleton_add]; exact add_comm _ _

theorem spec_freeStream (s : Strm) : Spec q (ownO (some s)) (freeStream s) (fun _ => 0) (fun _ => True) := by
  refine spec_use (by simp [ownO]) (spec_call (spec_frees s.files) (R := {s.id}) (by simp only [ownO]; abel) fun _ _ => ?_)
  exact spec_free1.eq (by simp)

theorem spec_freeStreamOf (s : Option Strm) : Spec q (ownO s) (freeStreamOf s) (fun _ => 0) (fun _ => True) := by
  cases s with
  | none => exact spec_pure trivial rfl
  | some s => exact spec_freeStream s

theorem spec_freeLast (l : Option Nat) : Spec q (ownL l) (freeLast l) (fun _ => 0) (fun _ => True) := by
  cases l with
  | none => exact spec_pure trivial rfl
  | some i => exact spec_free1

theorem spec_freeNodes (ns : List Node) : ∀ last, Spec q (ownL last + own ns) (freeNodes last ns) (fun _ => 0) (fun _ => True) := by
  induction ns with
  | nil => intro last; exact (spec_freeLast last).eq (by simp [own])
  | cons n r ih =>
    intro last
    refine spec_call (spec_freeLast last) rfl fun _ _ => ?_
    refine spec_use (by simp [own, ownN]) ?_
    refine spec_call (spec_freeStreamOf n.strm) (R := {n.id} + {n.str} + own r) (by simp only [own, ownN]; abel) fun _ _ => ?_
    refine spec_free (R := {n.id} + own r) (by abel) ?_
    exact spec_use (by simp) (ih (some n.id))

theorem spec_freeAll {ns : List Node} : Spec q (own ns) (freeNodes none ns) (fun _ => 0) (fun _ => True) :=
  (spec_freeNodes ns none).eq (by simp [ownL])

/-! ### Parsing -/

def FineNodes (j q : Prop) : List Node → Prop
  | [] => True
  | n :: r => Fine j q true n.cmd ∧
      (∀ x r', r = x :: r' → x.ty = .pipe → n.strm.isSome = true ∧ (n.cmd.look = false ∨ n.ty = .pipe → Fine j q false n.cmd)) ∧ FineNodes j q r

def shape (ns : List Node) : List (Nat × Ty × Option Strm) := ns.map fun n => (n.id, n.ty, n.strm)

def ownR : Option (List Node) → Blocks
  | none => 0
  | some ns => own ns

theorem spec_parseOps (l : Line) : ∀ acc, Spec q (own acc) (parseOps acc l) ownR
    (fun r => ∀ ns, r = some ns → ∃ ms, ns = acc ++ ms ∧ (∀ n ∈ ms, n.strm = none) ∧ ms.map (fun n => (n.ty, n.cmd)) = l.map fun p => (p.1.ty, p.2)) := by
  induction l with
  | nil => intro acc; exact spec_pure (by intro ns h; cases h; exact ⟨[], by simp⟩) rfl
  | cons p r ih =>
    intro acc
    obtain ⟨h, c⟩ := p
    refine spec_alloc fun id => spec_alloc fun str => ?_
    split
    · refine spec_call (R := 0) (spec_freeAll (ns := acc ++ [⟨id, h.ty, c, str, none⟩])) ?_ fun _ _ => spec_pure (by intro ns h; cases h) (by simp [ownR])
      rw [own_append]; simp only [own, ownN, ownO, add_zero]; abel
    · refine ((ih _).eq ?_).weaken fun a ha => ⟨rfl, ?_⟩
      · rw [own_append]; simp only [own, ownN, ownO, add_zero]; abel
      · intro ns hns
        obtain ⟨ms, e, h1, h2⟩ := ha ns hns
        refine ⟨⟨id, h.ty, c, str, none⟩ :: ms, by simp [e], ?_, by simp [h2]⟩
        intro n hn
        rcases List.mem_cons.1 hn with rfl | hn
        · rfl
        · exact h1 n hn

theorem spec_parseOut (h : Head) (str : Nat) {A : Blocks} (hA : str ∈ A) :
    Spec q A (parseOut h str) (fun s => ownO s + A) (fun _ => True) := by
  refine spec_use hA (spec_alloc fun fin => spec_alloc fun par => spec_alloc fun id => ?_)
  refine spec_call (R := {id} + ({par} + ({fin} + A))) (spec_allocs h.files) (by simp) fun fs _ => ?_
  split
  · refine spec_call (R := {par} + ({fin} + A)) (spec_freeStream ⟨id, fs⟩) (by simp only [ownO]; abel) fun _ _ => ?_
    refine spec_free (R := {par} + A) (by abel) (spec_free (R := A) rfl ?_)
    exact spec_pure trivial (by simp [ownO])
  · refine spec_use (by simp [hA]) (spec_free (R := (fs : Blocks) + ({id} + ({par} + A))) (by abel) ?_)
    refine spec_free (R := (fs : Blocks) + ({id} + A)) (by abel) (spec_pure trivial ?_)
    simp only [ownO]; abel

theorem spec_parseOuts (r : List (Head × Node)) : ∀ acc, (∀ p ∈ r, p.2.strm = none) → Spec q (own acc + own (r.map Prod.snd)) (parseOuts acc r) ownR
    (fun o => ∀ ns, o = some ns → ∃ ms, ns = acc ++ ms ∧ (∀ n ∈ ms, n.strm.isSome = true) ∧
      ms.map (fun n => (n.ty, n.cmd)) = r.map fun p => (p.2.ty, p.2.cmd)) := by
  induction r with
  | nil => intro acc _; exact spec_pure (by intro ns h; cases h; exact ⟨[], by simp⟩) (by simp [own, ownR])
  | cons p r ih =>
    intro acc hr
    obtain ⟨h, n⟩ := p
    have hn : n.strm = none := hr (h, n) (by simp)
    have hr' : ∀ p ∈ r, p.2.strm = none := fun p hp => hr p (by simp [hp])
    refine spec_use (by simp [own, ownN]) ?_
    refine spec_call (R := 0) (spec_parseOut h n.str (A := own acc + own (List.map Prod.snd ((h, n) :: r))) (by simp [own, ownN])) (by simp) fun s _ => ?_
    cases s with
    | none =>
      refine spec_call (R := 0) (spec_freeAll (ns := acc ++ n :: r.map Prod.snd)) ?_ fun _ _ => spec_pure (by intro ns h; cases h) (by simp [ownR])
      rw [own_append]; simp only [List.map_cons, ownO]; abel
    | some s =>
      refine ((ih (acc ++ [{ n with strm := some s }]) hr').eq ?_).weaken fun a ha => ⟨rfl, ?_⟩
      · rw [own_append]; simp only [List.map_cons, own, ownN, hn, ownO, add_zero]; abel
      · intro ns hns
        obtain ⟨ms, e, h1, h2⟩ := ha ns hns
        refine ⟨{ n with strm := some s } :: ms, by simp [e], ?_, by simp [h2]⟩
        intro n hn
        rcases List.mem_cons.1 hn with rfl | hn
        · rfl
        · exact h1 n hn

theorem zip_snd (l : Line) (ms : List Node) (h : ms.map (fun n => (n.ty, n.cmd)) = l.map fun p => (p.1.ty, p.2)) :
    ((l.map Prod.fst).zip ms).map Prod.snd = ms := by
  have : ms.length = l.length := by have := congrArg List.length h; simpa using this
  rw [List.map_snd_zip]
  simp [this]

theorem fine_parts {j q : Prop} {l : Line} (h1 : ∀ p ∈ l, Fine j q true p.2)
    (h2 : ∀ a p x r, l = a ++ p :: x :: r → x.1.ty = .pipe → p.2.look = false ∨ p.1.ty = .pipe → Fine j q false p.2) (ns : List Node) (hs : ∀ n ∈ ns, n.strm.isSome = true)
    (he : ns.map (fun n => (n.ty, n.cmd)) = l.map fun p => (p.1.ty, p.2)) : FineNodes j q ns := by
  induction l generalizing ns with
  | nil =>
    cases ns with
    | nil => trivial
    | cons => simp at he
  | cons p l ih =>
    cases ns with
    | nil => simp at he
    | cons n ns =>
      simp only [List.map_cons, List.cons.injEq, Prod.mk.injEq] at he
      obtain ⟨⟨e1, e2⟩, he⟩ := he
      refine ⟨e2 ▸ h1 p (by simp), ?_, ih (fun p hp => h1 p (by simp [hp])) (fun a p' x r e => h2 (p :: a) p' x r (by simp [e])) ns
        (fun n hn => hs n (by simp [hn])) he⟩
      rintro x r' rfl hx
      cases l with
      | nil => simp at he
      | cons y l =>
        simp only [List.map_cons, List.cons.injEq, Prod.mk.injEq] at he
        exact ⟨hs n (by simp), fun hl => e2 ▸ h2 [] p y l rfl (he.1.1 ▸ hx) (e1 ▸ e2 ▸ hl)⟩

theorem fineLine_parts {j q : Prop} {l : Line} (h : FineLine j q l) : (∀ p ∈ l, Fine j q true p.2) ∧
    (∀ a p x r, l = a ++ p :: x :: r → x.1.ty = .pipe → p.2.look = false ∨ p.1.ty = .pipe → Fine j q false p.2) := by
  have := h true
  cases this with
  | block h1 h2 => exact ⟨h1 l (by simp), h2 l (by simp)⟩

theorem spec_parse {j : Prop} {l : Line} (h : FineLine j q l) : Spec q 0 (parse l) ownR (fun o => ∀ ns, o = some ns → FineNodes j q ns) := by
  obtain ⟨g1, g2⟩ := fineLine_parts h
  refine spec_call (R := 0) (spec_parseOps l []) (by simp [own]) fun o ho => ?_
  cases o with
  | none => exact spec_pure (by intro ns h; cases h) (by simp [ownR])
  | some ns =>
    obtain ⟨ms, e, h1, h2⟩ := ho ns rfl
    simp only [List.nil_append] at e
    subst e
    have hz := zip_snd l ns h2
    refine ((spec_parseOuts ((l.map Prod.fst).zip ns) [] ?_).eq ?_).weaken fun o ho => ⟨rfl, ?_⟩
    · intro p hp
      exact h1 _ (by rw [← hz]; exact List.mem_map_of_mem hp)
    · rw [hz]; simp [own, ownR]
    · intro ns' hns
      obtain ⟨ms, e, k1, k2⟩ := ho ns' hns
      simp only [List.nil_append] at e
      subst e
      refine fine_parts g1 g2 ns' k1 (k2.trans (Eq.trans ?_ h2))
      conv => rhs; rw [← hz, List.map_map]
      rfl

end PBat.Lm
