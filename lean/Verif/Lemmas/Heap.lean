import Verif.Spec.Clone
/-
Rules for separate parts of memory and for code that uses them.
-/
namespace PBat
open Spec

theorem Spec.Apart.symm {h g : Heap} (a : Apart h g) : Apart g h := fun x => (a x).symm

theorem both_comm {h g : Heap} (a : Apart h g) : both h g = both g h := by
  funext x
  unfold both
  cases hh : h x with
  | none => cases hg : g x <;> rfl
  | some o =>
    cases hg : g x with
    | none => rfl
    | some o' => rcases a x with h1 | h1 <;> simp_all

theorem both_none {h g : Heap} {x : Nat} : both h g x = none ↔ h x = none ∧ g x = none := by
  unfold both
  cases h x <;> simp

theorem star_comm (P Q : HProp) : P ⋆ Q = Q ⋆ P := by
  have aux : ∀ P Q h, (P ⋆ Q) h → (Q ⋆ P) h := by
    rintro P Q h ⟨h1, h2, ha, rfl, hp, hq⟩
    exact ⟨h2, h1, ha.symm, both_comm ha, hq, hp⟩
  funext h
  exact propext ⟨aux P Q h, aux Q P h⟩

theorem star_assoc (P Q R : HProp) : (P ⋆ Q) ⋆ R = P ⋆ (Q ⋆ R) := by
  funext h
  refine propext ⟨?_, ?_⟩
  · rintro ⟨_, h3, ha, rfl, ⟨h1, h2, hb, rfl, hp, hq⟩, hr⟩
    have h23 : Apart h2 h3 := fun x => by
      rcases ha x with h | h
      · exact .inl (both_none.1 h).2
      · exact .inr h
    refine ⟨h1, both h2 h3, ?_, ?_, hp, h2, h3, h23, rfl, hq, hr⟩
    · intro x
      rcases hb x with h | h
      · exact .inl h
      · rcases ha x with h' | h'
        · exact .inl (both_none.1 h').1
        · exact .inr (both_none.2 ⟨h, h'⟩)
    · funext x
      unfold both
      cases h1 x <;> rfl
  · rintro ⟨h1, _, ha, rfl, hp, h2, h3, hb, rfl, hq, hr⟩
    have h12 : Apart h1 h2 := fun x => by
      rcases ha x with h | h
      · exact .inl h
      · exact .inr (both_none.1 h).1
    refine ⟨both h1 h2, h3, ?_, ?_, ⟨h1, h2, h12, rfl, hp, hq⟩, hr⟩
    · intro x
      rcases hb x with h | h
      · rcases ha x with h' | h'
        · exact .inl (both_none.2 ⟨h', h⟩)
        · exact .inr (both_none.1 h').2
      · exact .inr h
    · funext x
      unfold both
      cases h1 x <;> rfl

theorem emp_star (P : HProp) : hemp ⋆ P = P := by
  funext h
  refine propext ⟨?_, ?_⟩
  · rintro ⟨h1, h2, ha, rfl, he, hp⟩
    have : both h1 h2 = h2 := by
      funext x
      unfold both
      rw [he x]
    rwa [this]
  · intro hp
    refine ⟨fun _ => none, h, fun _ => .inl rfl, ?_, fun _ => rfl, hp⟩
    rfl

theorem star_emp (P : HProp) : P ⋆ hemp = P := by rw [star_comm, emp_star]

instance : Std.Associative hstar := ⟨star_assoc⟩
instance : Std.Commutative hstar := ⟨star_comm⟩

theorem fact_star {φ : Prop} {P : HProp} {h : Heap} : (fact φ ⋆ P) h ↔ φ ∧ P h := by
  constructor
  · rintro ⟨h1, h2, ha, rfl, ⟨hf, he⟩, hp⟩
    refine ⟨hf, ?_⟩
    have : (hemp ⋆ P) (both h1 h2) := ⟨h1, h2, ha, rfl, he, hp⟩
    rwa [emp_star] at this
  · rintro ⟨hf, hp⟩
    rw [← emp_star P] at hp
    obtain ⟨h1, h2, ha, rfl, he, hp⟩ := hp
    exact ⟨h1, h2, ha, rfl, ⟨hf, he⟩, hp⟩

theorem fact_true_star {φ : Prop} (hφ : φ) (P : HProp) : fact φ ⋆ P = P := by
  funext h
  exact propext ⟨fun hh => (fact_star.1 hh).2, fun hh => fact_star.2 ⟨hφ, hh⟩⟩

theorem star_ex {α : Type} (P : α → HProp) (Q : HProp) : hex P ⋆ Q = hex fun x => P x ⋆ Q := by
  funext h
  refine propext ⟨?_, ?_⟩
  · rintro ⟨h1, h2, ha, rfl, ⟨x, hp⟩, hq⟩
    exact ⟨x, h1, h2, ha, rfl, hp, hq⟩
  · rintro ⟨x, h1, h2, ha, rfl, hp, hq⟩
    exact ⟨h1, h2, ha, rfl, ⟨x, hp⟩, hq⟩

theorem star_mono {P P' Q Q' : HProp} (h1 : ∀ h, P h → P' h) (h2 : ∀ h, Q h → Q' h) (h : Heap) (hh : (P ⋆ Q) h) : (P' ⋆ Q') h := by
  obtain ⟨a, b, ha, rfl, hp, hq⟩ := hh
  exact ⟨a, b, ha, rfl, h1 _ hp, h2 _ hq⟩

/-! ### Rules -/

variable {α β : Type}

theorem works_mono {m : HM α} {Q Q' : α → HProp} (hq : ∀ a h, Q a h → Q' a h) : ∀ h, Works m Q h → Works m Q' h := by
  induction m with
  | ret a => exact hq a
  | ub => exact fun _ h => h
  | hang => exact fun _ h => h
  | read a k ih => exact fun h ⟨o, ho, hk⟩ => ⟨o, ho, ih o h hk⟩
  | write a o k ih => exact fun h ⟨ho, hk⟩ => ⟨ho, ih _ hk⟩
  | alloc o k ih => exact fun h hk x hx => ih x _ (hk x hx)
  | free a k ih => exact fun h ⟨ho, hk⟩ => ⟨ho, ih _ hk⟩

theorem both_left {h g : Heap} {a : Nat} {o : HObj} (ha : h a = some o) : both h g a = some o := by
  unfold both
  rw [ha]

theorem both_put {h g : Heap} {a : Nat} {o : Option HObj} (hg : g a = none) : (both h g).put a o = both (h.put a o) g := by
  funext x
  unfold Heap.put both
  by_cases hx : x = a
  · subst hx
    cases o <;> simp [hg]
  · simp [hx]

theorem apart_put {h g : Heap} {a : Nat} {o : Option HObj} (ha : Apart h g) (hg : g a = none) : Apart (h.put a o) g := by
  intro x
  unfold Heap.put
  by_cases hx : x = a
  · exact .inr (hx ▸ hg)
  · simp only [hx, if_false]
    exact ha x

theorem apart_none {h g : Heap} {a : Nat} {o : HObj} (ha : Apart h g) (hh : h a = some o) : g a = none := by
  rcases ha a with h1 | h1
  · rw [hh] at h1; cases h1
  · exact h1

/-- Other memory stays as it is. -/
theorem works_frame {m : HM α} {Q : α → HProp} {F : HProp} : ∀ h, (Works m Q ⋆ F) h → Works m (fun a => Q a ⋆ F) h := by
  induction m with
  | ret a => exact fun _ h => h
  | ub => exact fun _ ⟨_, _, _, _, h, _⟩ => h
  | hang => exact fun _ ⟨_, _, _, _, h, _⟩ => h
  | read a k ih =>
    rintro h ⟨h1, h2, ha, rfl, ⟨o, ho, hk⟩, hf⟩
    exact ⟨o, both_left ho, ih o _ ⟨h1, h2, ha, rfl, hk, hf⟩⟩
  | write a o k ih =>
    rintro h ⟨h1, h2, ha, rfl, ⟨⟨o', ho⟩, hk⟩, hf⟩
    have hn := apart_none ha ho
    refine ⟨⟨o', both_left ho⟩, ih _ ⟨h1.put a (some o), h2, apart_put ha hn, both_put hn, hk, hf⟩⟩
  | alloc o k ih =>
    rintro h ⟨h1, h2, ha, rfl, hk, hf⟩ x hx
    obtain ⟨hx1, hx2⟩ := both_none.1 hx
    exact ih x _ ⟨h1.put x (some o), h2, apart_put ha hx2, both_put hx2, hk x hx1, hf⟩
  | free a k ih =>
    rintro h ⟨h1, h2, ha, rfl, ⟨⟨o, ho, hs⟩, hk⟩, hf⟩
    have hn := apart_none ha ho
    refine ⟨⟨o, both_left ho, hs⟩, ih _ ⟨h1.put a none, h2, apart_put ha hn, both_put hn, hk, hf⟩⟩

theorem works_bind {m : HM α} {f : α → HM β} {S : β → HProp} : ∀ h, Works m (fun a => Works (f a) S) h → Works (m >>= f) S h := by
  show ∀ h, _ → Works (m.bind f) S h
  induction m with
  | ret a => exact fun _ h => h
  | ub => exact fun _ h => h
  | hang => exact fun _ h => h
  | read a k ih => exact fun h ⟨o, ho, hk⟩ => ⟨o, ho, ih o h hk⟩
  | write a o k ih => exact fun h ⟨ho, hk⟩ => ⟨ho, ih _ hk⟩
  | alloc o k ih => exact fun h hk x hx => ih x _ (hk x hx)
  | free a k ih => exact fun h ⟨ho, hk⟩ => ⟨ho, ih _ hk⟩

theorem Spec.Triple.conv {P P' : HProp} {m : HM α} {Q : α → HProp} (h : P = P') (t : Triple P' m Q) : Triple P m Q := h ▸ t

theorem Spec.Triple.conseq {P P' : HProp} {m : HM α} {Q Q' : α → HProp} (hp : ∀ h, P h → P' h) (t : Triple P' m Q')
    (hq : ∀ a h, Q' a h → Q a h) : Triple P m Q := fun h hh => works_mono hq h (t h (hp h hh))

theorem Spec.Triple.post {P : HProp} {m : HM α} {Q Q' : α → HProp} (t : Triple P m Q') (hq : ∀ a h, Q' a h → Q a h) : Triple P m Q :=
  t.conseq (fun _ h => h) hq

theorem Spec.Triple.frame {P : HProp} {m : HM α} {Q : α → HProp} (t : Triple P m Q) (F : HProp) : Triple (P ⋆ F) m fun a => Q a ⋆ F :=
  fun h hh => works_frame h (star_mono t (fun _ x => x) h hh)

theorem Spec.Triple.pure {a : α} {Q : α → HProp} {P : HProp} (h : ∀ x, P x → Q a x) : Triple P (Pure.pure a) Q := h

theorem Spec.Triple.bind {P : HProp} {m : HM α} {Q : α → HProp} {f : α → HM β} {S : β → HProp} (t : Triple P m Q)
    (k : ∀ a, Triple (Q a) (f a) S) : Triple P (m >>= f) S :=
  fun h hh => works_bind h (works_mono k h (t h hh))

theorem Spec.Triple.call {P F : HProp} {m : HM α} {Q : α → HProp} {f : α → HM β} {S : β → HProp} (t : Triple P m Q)
    (k : ∀ a, Triple (Q a ⋆ F) (f a) S) : Triple (P ⋆ F) (m >>= f) S := (t.frame F).bind k

theorem Spec.Triple.ex {P : α → HProp} {m : HM β} {Q : β → HProp} (h : ∀ x, Triple (P x) m Q) : Triple (hex P) m Q :=
  fun g ⟨x, hx⟩ => h x g hx

theorem Spec.Triple.fact {φ : Prop} {P : HProp} {m : HM β} {Q : β → HProp} (h : φ → Triple P m Q) : Triple (Spec.fact φ ⋆ P) m Q :=
  fun g hh => h (fact_star.1 hh).1 g (fact_star.1 hh).2

/-! ### The operations on memory -/

theorem pts_at {a : Nat} {o : HObj} {R : HProp} {h : Heap} (hh : (pts a o ⋆ R) h) : h a = some o := by
  obtain ⟨h1, h2, ha, rfl, hp, hr⟩ := hh
  unfold both
  rw [hp a, if_pos rfl]

theorem pts_put {a : Nat} {o : HObj} {R : HProp} {h : Heap} (hh : (pts a o ⋆ R) h) (o' : HObj) : (pts a o' ⋆ R) (h.put a (some o')) := by
  obtain ⟨h1, h2, ha, rfl, hp, hr⟩ := hh
  refine ⟨fun x => if x = a then some o' else none, h2, ?_, ?_, fun _ => rfl, hr⟩
  · intro x
    by_cases hx : x = a
    · rcases ha x with h | h
      · rw [hp x, if_pos hx] at h; cases h
      · exact .inr h
    · exact .inl (if_neg hx)
  · funext x
    unfold Heap.put both
    by_cases hx : x = a
    · simp [hx]
    · simp [hx, hp x]

theorem pts_free {a : Nat} {o : HObj} {R : HProp} {h : Heap} (hh : (pts a o ⋆ R) h) : R (h.put a none) := by
  obtain ⟨h1, h2, ha, rfl, hp, hr⟩ := hh
  have : (both h1 h2).put a none = h2 := by
    funext x
    unfold Heap.put both
    by_cases hx : x = a
    · rcases ha x with h | h
      · rw [hp x, if_pos hx] at h; cases h
      · simp [hx]; rw [← hx, h]
    · simp [hx, hp x]
  rwa [this]

theorem pts_new {a : Nat} {o : HObj} {R : HProp} {h : Heap} (hr : R h) (hn : h a = none) : (pts a o ⋆ R) (h.put a (some o)) := by
  refine ⟨fun x => if x = a then some o else none, h, ?_, ?_, fun _ => rfl, hr⟩
  · intro x
    by_cases hx : x = a
    · exact .inr (hx ▸ hn)
    · exact .inl (if_neg hx)
  · funext x
    unfold Heap.put both
    by_cases hx : x = a
    · simp [hx]
    · simp [hx]

theorem Spec.Triple.read {a : Nat} {o : HObj} {F : HProp} {f : HObj → HM β} {S : β → HProp} (k : Triple (pts a o ⋆ F) (f o) S) :
    Triple (pts a o ⋆ F) (hread a >>= f) S := fun h hh => ⟨o, pts_at hh, k h hh⟩

theorem pts_at0 {a : Nat} {o : HObj} {h : Heap} (hh : pts a o h) : h a = some o := by rw [hh a, if_pos rfl]

theorem Spec.Triple.write {a : Nat} {o o' : HObj} : Triple (pts a o) (hwrite a o') fun _ => pts a o' := by
  intro h hh
  refine ⟨⟨o, pts_at0 hh⟩, ?_⟩
  have : (pts a o ⋆ hemp) h := by rwa [star_emp]
  have := pts_put this o'
  rwa [star_emp] at this

theorem Spec.Triple.alloc {o : HObj} : Triple hemp (halloc o) fun a => pts a o := by
  intro h hh x hx
  have := pts_new (o := o) hh hx
  rwa [star_emp] at this

theorem Spec.Triple.free {a : Nat} {o : HObj} (ho : ∀ l, o ≠ .ptrs true l) : Triple (pts a o) (hfree a) fun _ => hemp := by
  intro h hh
  refine ⟨⟨o, pts_at0 hh, ho⟩, ?_⟩
  have : (pts a o ⋆ hemp) h := by rwa [star_emp]
  exact pts_free this

theorem Spec.Triple.allocK {o : HObj} {F : HProp} {f : Nat → HM β} {S : β → HProp} (k : ∀ a, Triple (pts a o ⋆ F) (f a) S) :
    Triple F (halloc o >>= f) S := Triple.conv (emp_star F).symm (Triple.alloc.call k)

theorem Spec.Triple.text {a : Nat} {t : List Char} : Triple (pts a (.text t)) (readText a) fun r => Spec.fact (r = t) ⋆ pts a (.text t) := by
  unfold readText
  refine Triple.conv (star_emp _).symm (Triple.read ?_)
  refine Triple.pure ?_
  intro x hx
  rw [star_emp] at hx
  exact fact_star.2 ⟨rfl, hx⟩

theorem Spec.Triple.ptrs {a : Nat} {s : Bool} {l : List (Option Nat)} :
    Triple (pts a (.ptrs s l)) (readPtrs a) fun r => Spec.fact (r = l) ⋆ pts a (.ptrs s l) := by
  unfold readPtrs
  refine Triple.conv (star_emp _).symm (Triple.read ?_)
  refine Triple.pure ?_
  intro x hx
  rw [star_emp] at hx
  exact fact_star.2 ⟨rfl, hx⟩

theorem Spec.Triple.textK {a : Nat} {t : List Char} {F : HProp} {f : List Char → HM β} {S : β → HProp}
    (k : Triple (pts a (.text t) ⋆ F) (f t) S) : Triple (pts a (.text t) ⋆ F) (readText a >>= f) S := by
  refine Triple.text.call ?_
  intro r
  rw [star_assoc]
  exact Triple.fact fun h => h ▸ k

theorem Spec.Triple.ptrsK {a : Nat} {s : Bool} {l : List (Option Nat)} {F : HProp} {f : List (Option Nat) → HM β} {S : β → HProp}
    (k : Triple (pts a (.ptrs s l) ⋆ F) (f l) S) : Triple (pts a (.ptrs s l) ⋆ F) (readPtrs a >>= f) S := by
  refine Triple.ptrs.call ?_
  intro r
  rw [star_assoc]
  exact Triple.fact fun h => h ▸ k

theorem Spec.Triple.writePtr {a i : Nat} {s : Bool} {l : List (Option Nat)} {p : Option Nat} (hi : i < l.length) :
    Triple (pts a (.ptrs s l)) (PBat.writePtr a i p) fun _ => pts a (.ptrs s (l.set i p)) := by
  unfold PBat.writePtr
  refine Triple.conv (star_emp _).symm (Triple.read ?_)
  simp only [if_pos hi]
  rw [star_emp]
  exact Triple.write

theorem Spec.Triple.strdup {a : Nat} {t : List Char} : Triple (pts a (.text t)) (hstrdup a) fun q => pts a (.text t) ⋆ pts q (.text t) := by
  unfold hstrdup
  refine Triple.conv (star_emp _).symm (Triple.textK ?_)
  refine Triple.conv (show _ = hemp ⋆ pts a (.text t) by rw [star_emp, emp_star]) ?_
  refine (Triple.alloc.frame _).post ?_
  intro q h hh
  rwa [star_comm]

/-! ### What it means for a run -/

/-- One access of code that works on its part of memory. -/
theorem works_step {m : HM α} {Q : α → HProp} {R : HProp} {h : Heap} (hw : (Works m Q ⋆ R) h) (xs : List Nat) :
    match m.step h xs with
    | .done => True
    | .next m' h' _ => (Works m' Q ⋆ R) h'
    | .stuck => True
    | _ => False := by
  obtain ⟨h1, h2, ha, rfl, hm, hr⟩ := hw
  cases m with
  | ret a => trivial
  | ub => exact hm
  | hang => exact hm
  | read a k =>
    obtain ⟨o, ho, hk⟩ := hm
    simp only [HM.step, both_left ho]
    exact ⟨h1, h2, ha, rfl, hk, hr⟩
  | write a o k =>
    obtain ⟨⟨o', ho⟩, hk⟩ := hm
    have hn := apart_none ha ho
    simp only [HM.step, both_left ho]
    exact ⟨h1.put a (some o), h2, apart_put ha hn, both_put hn, hk, hr⟩
  | alloc o k =>
    cases xs with
    | nil => trivial
    | cons x xs =>
      unfold HM.step
      by_cases hx : (both h1 h2 x).isSome = true
      · simp only [if_pos hx]
      · simp only [if_neg hx]
        have hx : both h1 h2 x = none := by
          cases hb : both h1 h2 x with
          | none => rfl
          | some o => rw [hb] at hx; exact absurd rfl hx
        obtain ⟨hx1, hx2⟩ := both_none.1 hx
        exact ⟨h1.put x (some o), h2, apart_put ha hx2, both_put hx2, hm x hx1, hr⟩
  | free a k =>
    obtain ⟨⟨o, ho, hs⟩, hk⟩ := hm
    have hn := apart_none ha ho
    have hb := both_left (g := h2) ho
    unfold HM.step
    simp only [hb]
    cases o with
    | ptrs s l =>
      cases s with
      | true => exact absurd rfl (hs l)
      | false => exact ⟨h1.put a none, h2, apart_put ha hn, both_put hn, hk, hr⟩
    | _ => exact ⟨h1.put a none, h2, apart_put ha hn, both_put hn, hk, hr⟩

/-- Two threads on separate parts of memory. -/
theorem works_par {Q : α → HProp} {Q' : β → HProp} {R : HProp} : ∀ (s : List Bool) (m : HM α) (n : HM β) (h : Heap) (xs : List Nat),
    (Works m Q ⋆ Works n Q' ⋆ R) h → GoodPar (fun m' n' => Works m' Q ⋆ Works n' Q' ⋆ R) (par s m n h xs) := by
  intro s
  induction s with
  | nil => exact fun m n h xs hh => hh
  | cons b s ih =>
    intro m n h xs hh
    cases b with
    | true =>
      have := works_step hh xs
      unfold par
      cases hs : m.step h xs with
      | done => exact ih m n h xs hh
      | next m' h' xs' => rw [hs] at this; exact ih m' n h' xs' this
      | ub => rw [hs] at this; exact this
      | hang => rw [hs] at this; exact this
      | stuck => trivial
    | false =>
      have e : ∀ (m : HM α) (n : HM β), Works m Q ⋆ Works n Q' ⋆ R = Works n Q' ⋆ Works m Q ⋆ R := by intros; ac_rfl
      rw [e] at hh
      have := works_step hh xs
      unfold par
      rw [← e] at hh
      cases hs : n.step h xs with
      | done => exact ih m n h xs hh
      | next n' h' xs' => rw [hs] at this; exact ih m n' h' xs' (by rw [e]; exact this)
      | ub => rw [hs] at this; exact this
      | hang => rw [hs] at this; exact this
      | stuck => trivial

/-- A run alone. -/
theorem works_exec {m : HM α} {Q : α → HProp} : ∀ (h : Heap) (xs : List Nat), Works m Q h → GoodRun Q (m.exec h xs) := by
  induction m with
  | ret a => exact fun h xs hh => hh
  | ub => exact fun h xs hh => hh
  | hang => exact fun h xs hh => hh
  | read a k ih =>
    rintro h xs ⟨o, ho, hk⟩
    simp only [HM.exec, ho]
    exact ih o h xs hk
  | write a o k ih =>
    rintro h xs ⟨⟨o', ho⟩, hk⟩
    simp only [HM.exec, ho]
    exact ih _ xs hk
  | alloc o k ih =>
    intro h xs hk
    cases xs with
    | nil => trivial
    | cons x xs =>
      unfold HM.exec
      by_cases hx : (h x).isSome = true
      · simp only [if_pos hx]
        trivial
      · simp only [if_neg hx]
        have hx : h x = none := by
          cases hb : h x with
          | none => rfl
          | some o => rw [hb] at hx; exact absurd rfl hx
        exact ih x _ xs (hk x hx)
  | free a k ih =>
    rintro h xs ⟨⟨o, ho, hs⟩, hk⟩
    unfold HM.exec
    simp only [ho]
    cases o with
    | ptrs s l =>
      cases s with
      | true => exact absurd rfl (hs l)
      | false => exact ih _ xs hk
    | _ => exact ih _ xs hk

theorem exec_bind (m : HM α) (f : α → HM β) : ∀ (h : Heap) (xs : List Nat), (m >>= f).exec h xs = match m.exec h xs with
    | .ok a h xs => (f a).exec h xs
    | .ub => .ub
    | .hang => .hang
    | .stuck => .stuck := by
  show ∀ h xs, (m.bind f).exec h xs = _
  induction m with
  | ret a => exact fun _ _ => rfl
  | ub => exact fun _ _ => rfl
  | hang => exact fun _ _ => rfl
  | read a k ih =>
    intro h xs
    simp only [HM.bind, HM.exec]
    cases h a with
    | none => rfl
    | some o => exact ih o h xs
  | write a o k ih =>
    intro h xs
    simp only [HM.bind, HM.exec]
    cases h a with
    | none => rfl
    | some o' => exact ih _ xs
  | alloc o k ih =>
    intro h xs
    cases xs with
    | nil => rfl
    | cons x xs =>
      have e : ∀ {γ : Type} (k : Nat → HM γ), (HM.alloc o k).exec h (x :: xs) = if (h x).isSome then .stuck else (k x).exec (h.put x (some o)) xs :=
        fun _ => rfl
      simp only [HM.bind, e]
      by_cases hx : (h x).isSome = true
      · simp only [if_pos hx]
      · simp only [if_neg hx]
        exact ih x _ xs
  | free a k ih =>
    intro h xs
    have e : ∀ {γ : Type} (k : HM γ), (HM.free a k).exec h xs = match h a with
      | some (.ptrs true _) => .ub
      | some _ => k.exec (h.put a none) xs
      | none => .ub := fun _ => rfl
    simp only [HM.bind, e]
    cases h a with
    | none => rfl
    | some o =>
      cases o with
      | ptrs s l =>
        cases s with
        | true => rfl
        | false => exact ih _ xs
      | _ => exact ih _ xs

/-- Code that does not ask for memory. -/
def NoAlloc : HM α → Prop
  | .ret _ => True
  | .ub => True
  | .hang => True
  | .read _ k => ∀ o, NoAlloc (k o)
  | .write _ _ k => NoAlloc k
  | .alloc _ _ => False
  | .free _ k => NoAlloc k

theorem NoAlloc.bind {m : HM α} {f : α → HM β} (hm : NoAlloc m) (hf : ∀ a, NoAlloc (f a)) : NoAlloc (m >>= f) := by
  show NoAlloc (m.bind f)
  induction m with
  | ret a => exact hf a
  | ub => trivial
  | hang => trivial
  | read a k ih => exact fun o => ih o (hm o)
  | write a o k ih => exact ih hm
  | alloc o k ih => exact hm.elim
  | free a k ih => exact ih hm

theorem NoAlloc.exec {m : HM α} (hm : NoAlloc m) : ∀ (h : Heap) (xs : List Nat), m.exec h xs ≠ .stuck := by
  induction m with
  | ret a => exact fun _ _ h => nomatch h
  | ub => exact fun _ _ h => nomatch h
  | hang => exact fun _ _ h => nomatch h
  | read a k ih =>
    intro h xs
    simp only [HM.exec]
    cases h a with
    | none => exact fun h => nomatch h
    | some o => exact ih o (hm o) h xs
  | write a o k ih =>
    intro h xs
    simp only [HM.exec]
    cases h a with
    | none => exact fun h => nomatch h
    | some o' => exact ih hm _ xs
  | alloc o k ih => exact hm.elim
  | free a k ih =>
    intro h xs
    unfold HM.exec
    cases h a with
    | none => exact fun h => nomatch h
    | some o =>
      cases o with
      | ptrs s l =>
        cases s with
        | true => exact fun h => nomatch h
        | false => exact ih hm _ xs
      | _ => exact ih hm _ xs

end PBat
