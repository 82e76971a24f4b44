import Verif.Lemmas.Heap
/-
Each function that copies, changes or frees what an instance of the interpreter holds, on its own memory.
-/
namespace PBat
open Spec

variable {β : Type}

theorem textsAt_length : ∀ {ps : List (Option Nat)} {vs : List (Option (List Char))} {h : Heap}, textsAt ps vs h → ps.length = vs.length
  | [], [], _, _ => rfl
  | [], _ :: _, _, h => absurd h.1 id
  | none :: _, [], _, h => absurd h.1 id
  | some _ :: _, [], _, h => absurd h.1 id
  | none :: _, some _ :: _, _, h => absurd h.1 id
  | some _ :: _, none :: _, _, h => absurd h.1 id
  | none :: ps, none :: vs, _, h => by
    unfold textsAt at h
    simp [textsAt_length h]
  | some p :: ps, some v :: vs, _, h => by
    unfold textsAt at h
    obtain ⟨_, _, _, _, _, h⟩ := h
    simp [textsAt_length h]

theorem textsAt_false {ps : List (Option Nat)} {vs : List (Option (List Char))} {m : HM β} {Q : β → HProp} {F : HProp}
    (h : textsAt ps vs = Spec.fact False) : Triple (textsAt ps vs ⋆ F) m Q := by
  rw [h]
  exact Triple.fact fun h => h.elim

theorem Spec.Triple.absurd {m : HM β} {Q : β → HProp} {F : HProp} : Triple (Spec.fact False ⋆ F) m Q := Triple.fact fun h => h.elim

theorem Spec.Triple.absurd0 {m : HM β} {Q : β → HProp} : Triple (Spec.fact False) m Q :=
  Triple.conv (star_emp _).symm Triple.absurd

/-- Texts of two arrays, one after the other. -/
theorem textsAt_append : ∀ (a b : List (Option Nat)) (c d : List (Option (List Char))), a.length = c.length →
    textsAt (a ++ b) (c ++ d) = textsAt a c ⋆ textsAt b d
  | [], b, [], d, _ => (emp_star _).symm
  | [], _, _ :: _, _, h => by simp at h
  | _ :: _, _, [], _, h => by simp at h
  | none :: a, b, none :: c, d, h => by
    simp only [List.cons_append, textsAt]
    exact textsAt_append a b c d (by simpa using h)
  | some p :: a, b, some v :: c, d, h => by
    simp only [List.cons_append, textsAt]
    rw [textsAt_append a b c d (by simpa using h), star_assoc]
  | none :: a, b, some v :: c, d, h => by
    simp only [List.cons_append, textsAt]
    funext x
    refine propext ⟨fun hx => absurd hx.1 id, fun hx => absurd (fact_star.1 hx).1 id⟩
  | some p :: a, b, none :: c, d, h => by
    simp only [List.cons_append, textsAt]
    funext x
    refine propext ⟨fun hx => absurd hx.1 id, fun hx => absurd (fact_star.1 hx).1 id⟩

theorem textsAt_none (n : Nat) : textsAt (List.replicate n none) (List.replicate n none) = hemp := by
  induction n with
  | zero => rfl
  | succ n ih => simp only [List.replicate_succ, textsAt]; exact ih

theorem textsAt_nones {l : List (Option Nat)} {n : Nat} {h : Heap} (ht : textsAt l (List.replicate n none) h) : l = List.replicate n none := by
  induction n generalizing l with
  | zero =>
    cases l with
    | nil => rfl
    | cons p l => exact absurd (textsAt_length ht) (by simp)
  | succ n ih =>
    cases l with
    | nil => exact absurd (textsAt_length ht) (by simp)
    | cons p l =>
      rw [List.replicate_succ] at ht ⊢
      cases p with
      | none => unfold textsAt at ht; rw [ih ht]
      | some p => exact absurd ht.1 id

/-- The texts of an array are copied. -/
theorem dupSlots_triple (new : Nat) (s : Bool) : ∀ (ps : List (Option Nat)) (vs : List (Option (List Char))) (pre : List (Option Nat)) (k : Nat),
    Triple (pts new (.ptrs s (pre ++ List.replicate (ps.length + k) none)) ⋆ textsAt ps vs) (dupSlots new pre.length ps)
      fun _ => hex fun qs => fact (qs.length = ps.length) ⋆ pts new (.ptrs s (pre ++ qs ++ List.replicate k none)) ⋆ textsAt ps vs ⋆ textsAt qs vs
  | [], [], pre, k => by
    unfold dupSlots
    refine Triple.pure fun h hh => ⟨[], ?_⟩
    show (Spec.fact (([] : List (Option Nat)).length = ([] : List (Option Nat)).length) ⋆ _) h
    rw [fact_true_star rfl]
    simp only [textsAt, star_emp, List.append_nil, List.length_nil, Nat.zero_add] at hh ⊢
    exact hh
  | [], _ :: _, _, _ => Triple.conv (star_comm _ _) Triple.absurd
  | none :: _, [], _, _ => Triple.conv (star_comm _ _) Triple.absurd
  | some _ :: _, [], _, _ => Triple.conv (star_comm _ _) Triple.absurd
  | none :: _, some _ :: _, _, _ => Triple.conv (star_comm _ _) Triple.absurd
  | some _ :: _, none :: _, _, _ => Triple.conv (star_comm _ _) Triple.absurd
  | none :: ps, none :: vs, pre, k => by
    unfold dupSlots
    have ih := dupSlots_triple new s ps vs (pre ++ [none]) k
    have e1 : pre ++ [none] ++ List.replicate (ps.length + k) none = pre ++ List.replicate ((none :: ps).length + k) none := by
      have : (none :: ps).length + k = (ps.length + k) + 1 := by simp only [List.length_cons]; omega
      rw [this, List.replicate_succ, List.append_assoc]; rfl
    rw [e1] at ih
    simp only [List.length_append, List.length_cons, List.length_nil, Nat.zero_add] at ih ⊢
    simp only [textsAt]
    refine ih.post ?_
    rintro _ h ⟨qs, hq⟩
    refine ⟨none :: qs, ?_⟩
    obtain ⟨hl, hq⟩ := fact_star.1 hq
    refine fact_star.2 ⟨by simp [hl], ?_⟩
    simp only [textsAt]
    simpa using hq
  | some p :: ps, some v :: vs, pre, k => by
    unfold dupSlots
    simp only [textsAt]
    refine Triple.conv (show _ = pts p (.text v) ⋆ (pts new (.ptrs s (pre ++ List.replicate ((some p :: ps).length + k) none)) ⋆ textsAt ps vs) by ac_rfl) ?_
    refine Triple.strdup.call fun q => ?_
    refine Triple.conv (show _ = pts new (.ptrs s (pre ++ List.replicate ((some p :: ps).length + k) none)) ⋆
      (pts p (.text v) ⋆ pts q (.text v) ⋆ textsAt ps vs) by ac_rfl) ?_
    refine (Triple.writePtr (by simp; omega)).call fun _ => ?_
    have e1 : (pre ++ List.replicate ((some p :: ps).length + k) none).set pre.length (some q) =
        pre ++ [some q] ++ List.replicate (ps.length + k) none := by
      have : (some p :: ps).length + k = (ps.length + k) + 1 := by simp only [List.length_cons]; omega
      rw [this, List.replicate_succ, List.set_append_right _ _ (Nat.le_refl _)]
      simp
    rw [e1]
    have ih := dupSlots_triple new s ps vs (pre ++ [some q]) k
    simp only [List.length_append, List.length_cons, List.length_nil, Nat.zero_add] at ih
    refine Triple.conv (show _ = (pts new (.ptrs s (pre ++ [some q] ++ List.replicate (ps.length + k) none)) ⋆ textsAt ps vs) ⋆
      (pts p (.text v) ⋆ pts q (.text v)) by ac_rfl) ?_
    refine (ih.frame _).post ?_
    intro _ h hh
    rw [star_ex] at hh
    obtain ⟨qs, hq⟩ := hh
    rw [star_assoc] at hq
    obtain ⟨hl, hq⟩ := fact_star.1 hq
    refine ⟨some q :: qs, fact_star.2 ⟨by simp [hl], ?_⟩⟩
    have e2 : pre ++ [some q] ++ qs ++ List.replicate k none = pre ++ some q :: qs ++ List.replicate k none := by simp
    rw [e2] at hq
    simp only [textsAt]
    have : ∀ A B C D E : HProp, (A ⋆ B ⋆ C) ⋆ D ⋆ E = A ⋆ (D ⋆ B) ⋆ E ⋆ C := by intros; ac_rfl
    rw [this] at hq
    exact hq

/-- `pBat_DuplicateLocalVar`: another block with the same values. -/
theorem dupLocal_triple (b : Nat) (s : Bool) (vs : List (Option (List Char))) :
    Triple (localsAt b s vs) (dupLocal b) fun n => localsAt b s vs ⋆ localsAt n false vs := by
  unfold localsAt
  refine Triple.ex fun l => Triple.fact fun hl => ?_
  unfold dupLocal
  refine Triple.allocK fun n => ?_
  refine Triple.conv (show _ = pts b (.ptrs s l) ⋆ (pts n (.ptrs false (List.replicate 128 none)) ⋆ textsAt l vs) by ac_rfl) ?_
  refine Triple.ptrsK ?_
  have t := dupSlots_triple n false l vs [] 0
  simp only [List.nil_append, List.length_nil, Nat.add_zero, hl.1, List.replicate_zero, List.append_nil] at t
  refine Triple.conv (star_comm _ _) (t.call fun _ => ?_)
  refine Triple.pure fun h hh => ?_
  rw [star_ex] at hh
  obtain ⟨qs, hh⟩ := hh
  rw [star_assoc] at hh
  obtain ⟨hq, hh⟩ := fact_star.1 hh
  rw [star_ex]
  refine ⟨l, ?_⟩
  dsimp only
  rw [star_assoc, fact_true_star hl, star_comm, star_ex]
  refine ⟨qs, ?_⟩
  dsimp only
  rw [star_assoc, fact_true_star ⟨hq, hl.2⟩]
  have : ∀ A B C D : HProp, (A ⋆ B ⋆ C) ⋆ D = (A ⋆ C) ⋆ D ⋆ B := by intros; ac_rfl
  rw [this] at hh
  exact hh

theorem freeSlots_triple : ∀ (ps : List (Option Nat)) (vs : List (Option (List Char))),
    Triple (textsAt ps vs) (freeSlots ps) fun _ => hemp
  | [], [] => Triple.pure fun _ h => h
  | [], _ :: _ => Triple.absurd0
  | none :: _, [] => Triple.absurd0
  | some _ :: _, [] => Triple.absurd0
  | none :: _, some _ :: _ => Triple.absurd0
  | some _ :: _, none :: _ => Triple.absurd0
  | none :: ps, none :: vs => by
    unfold freeSlots
    exact (Triple.pure (P := textsAt ps vs) (Q := fun _ => textsAt ps vs) fun _ h => h).bind fun _ => freeSlots_triple ps vs
  | some p :: ps, some v :: vs => by
    unfold freeSlots hfreeOpt
    refine (Triple.free (by intro l h; cases h)).call fun _ => ?_
    rw [emp_star]
    exact freeSlots_triple ps vs

/-- `pBat_FreeLocalBlock`: nothing remains. -/
theorem freeLocalBlock_triple (b : Nat) (vs : List (Option (List Char))) :
    Triple (localsAt b false vs) (freeLocalBlock b) fun _ => hemp := by
  unfold localsAt
  refine Triple.ex fun l => Triple.fact fun hl => ?_
  unfold freeLocalBlock
  refine Triple.ptrsK ?_
  refine Triple.conseq (P' := pts b (.ptrs false l) ⋆ textsAt (l.drop 33) (vs.drop 33)) ?_ ?_ (fun _ _ h => h)
  · refine star_mono (fun _ h => h) fun h ht => ?_
    have hlen := textsAt_length ht
    have e : textsAt l vs = textsAt (l.take 33 ++ l.drop 33) (vs.take 33 ++ vs.drop 33) := by
      rw [List.take_append_drop, List.take_append_drop]
    rw [e, textsAt_append _ _ _ _ (by simp [hlen]), hl.2] at ht
    obtain ⟨h1, h2, ha, rfl, ht, hd⟩ := ht
    rw [textsAt_nones ht, textsAt_none] at ht
    have : (hemp ⋆ textsAt (l.drop 33) (vs.drop 33)) (both h1 h2) := ⟨h1, h2, ha, rfl, ht, hd⟩
    rwa [emp_star] at this
  · refine Triple.conv (star_comm _ _) ((freeSlots_triple _ _).call fun _ => ?_)
    rw [emp_star]
    exact Triple.free (by intro l h; cases h)

/-! ### Changing a local variable -/

theorem newSlot_triple (t : Option (List Char)) : Triple hemp (newSlot t) fun q => textsAt [q] [t] := by
  cases t with
  | none => exact Triple.pure fun h hh => hh
  | some t =>
    unfold newSlot
    refine Triple.allocK fun a => Triple.pure fun h hh => ?_
    simpa only [textsAt] using hh

/-- `pBat_SetLocalVar`. -/
theorem heapSetLocal_triple (b : Nat) (s : Bool) (vs : List (Option (List Char))) (c : Nat) (t : Option (List Char)) :
    Triple (localsAt b s vs) (heapSetLocal b c t) fun _ => localsAt b s (if c < 128 ∧ 32 < c then vs.set c t else vs) := by
  unfold heapSetLocal
  by_cases hc : c < 128 ∧ 32 < c
  · simp only [if_pos hc]
    unfold localsAt
    refine Triple.ex fun l => Triple.fact fun hl => ?_
    refine Triple.ptrsK ?_
    refine Triple.conv (emp_star _).symm ((newSlot_triple t).call fun q => ?_)
    refine Triple.conv (show _ = pts b (.ptrs s l) ⋆ (textsAt [q] [t] ⋆ textsAt l vs) by ac_rfl) ?_
    refine (Triple.writePtr (by omega)).call fun _ => ?_
    by_cases hlen : l.length = vs.length
    · have hcl : c < l.length := by omega
      have hcv : c < vs.length := by omega
      have e1 : l = l.take c ++ [l[c]] ++ l.drop (c + 1) := by
        rw [List.append_assoc, List.singleton_append, List.getElem_cons_drop, List.take_append_drop]
      have e2 : vs = vs.take c ++ [vs[c]] ++ vs.drop (c + 1) := by
        rw [List.append_assoc, List.singleton_append, List.getElem_cons_drop, List.take_append_drop]
      have s1 : l.set c q = l.take c ++ [q] ++ l.drop (c + 1) := by
        rw [List.set_eq_take_append_cons_drop, if_pos hcl]; simp
      have s2 : vs.set c t = vs.take c ++ [t] ++ vs.drop (c + 1) := by
        rw [List.set_eq_take_append_cons_drop, if_pos hcv]; simp
      have t1 : textsAt l vs = (textsAt (l.take c) (vs.take c) ⋆ textsAt [l[c]] [vs[c]]) ⋆ textsAt (l.drop (c + 1)) (vs.drop (c + 1)) := by
        rw [← textsAt_append _ _ _ _ (by simp [hlen]), ← textsAt_append _ _ _ _ (by simp [hlen]), ← e1, ← e2]
      have t2 : textsAt (l.set c q) (vs.set c t) = (textsAt (l.take c) (vs.take c) ⋆ textsAt [q] [t]) ⋆ textsAt (l.drop (c + 1)) (vs.drop (c + 1)) := by
        rw [← textsAt_append _ _ _ _ (by simp [hlen]), ← textsAt_append _ _ _ _ (by simp [hlen]), ← s1, ← s2]
      have hj : l[c]?.join = l[c] := by rw [List.getElem?_eq_getElem hcl]; rfl
      rw [hj]
      refine Triple.conv (show _ = textsAt [l[c]] [vs[c]] ⋆ (pts b (.ptrs s (l.set c q)) ⋆ textsAt (l.set c q) (vs.set c t)) by
        rw [t1, t2]; ac_rfl) ?_
      have fr : Triple (textsAt [l[c]] [vs[c]]) (hfreeOpt l[c]) fun _ => hemp := by
        cases hlc : l[c] with
        | none =>
          cases hvc : vs[c] with
          | none => exact Triple.pure fun _ h => h
          | some v => exact Triple.absurd0
        | some p =>
          cases hvc : vs[c] with
          | none => exact Triple.absurd0
          | some v =>
            unfold hfreeOpt
            simp only [textsAt, star_emp]
            exact Triple.free (by intro l h; cases h)
      refine (fr.frame _).post ?_
      intro _ h hh
      rw [emp_star] at hh
      refine ⟨l.set c q, fact_star.2 ⟨⟨by simp [hl.1], ?_⟩, hh⟩⟩
      rw [List.take_set_of_le (by omega)]
      exact hl.2
    · intro h hh
      exfalso
      obtain ⟨_, _, _, _, _, hh⟩ := hh
      obtain ⟨_, _, _, _, _, hh⟩ := hh
      exact hlen (textsAt_length hh)
  · simp only [if_neg hc]
    exact Triple.pure fun _ h => h

/-! ### The stack of directories -/

theorem Spec.Triple.frameL {P F : HProp} {m : HM β} {Q : β → HProp} (t : Triple P m Q) : Triple (F ⋆ P) m fun a => F ⋆ Q a :=
  Triple.conv (star_comm _ _) ((t.frame F).post fun a h hh => by rwa [star_comm])

theorem dirPtrsK {d : DirStack} {a : Nat} {l : List (Option Nat)} {F : HProp} {f : List (Option Nat) → HM β} {S : β → HProp}
    (hd : d.paths = some a) (hl : l.length = d.count) (k : Triple (pts a (.ptrs false l) ⋆ F) (f l) S) :
    Triple (pts a (.ptrs false l) ⋆ F) (dirPtrs d >>= f) S := by
  unfold dirPtrs
  by_cases hc : d.count = 0
  · rw [if_pos hc]
    have : l = [] := List.eq_nil_of_length_eq_zero (by omega)
    subst this
    exact k
  · rw [if_neg hc, hd]
    exact Triple.ptrsK k

theorem dirsAt_some {d : DirStack} {a : Nat} (h : d.paths = some a) (vs : List (List Char)) : dirsAt d vs =
    hex fun l => fact (l.length = vs.length ∧ d.count = vs.length) ⋆ pts a (.ptrs false l) ⋆ textsAt l (vs.map some) := by
  unfold dirsAt
  rw [h]

theorem dirsAt_none {d : DirStack} (h : d.paths = none) (vs : List (List Char)) : dirsAt d vs = fact (vs = [] ∧ d.count = 0) := by
  unfold dirsAt
  rw [h]

theorem Spec.Triple.fact0 {φ : Prop} {m : HM β} {Q : β → HProp} (h : φ → Triple hemp m Q) : Triple (Spec.fact φ) m Q := by
  refine Triple.conv (star_emp _).symm (Triple.fact h)

/-- `pBat_DirStackCopy`. -/
theorem dirStackCopy_triple (d : DirStack) (vs : List (List Char)) :
    Triple (dirsAt d vs) (dirStackCopy d) fun n => dirsAt d vs ⋆ dirsAt n vs := by
  unfold dirStackCopy
  cases hd : d.paths with
  | none =>
    rw [dirsAt_none hd]
    refine Triple.fact0 fun hv => ?_
    obtain ⟨rfl, hc⟩ := hv
    refine Triple.allocK fun n => ?_
    have e : dirPtrs d = pure [] := by unfold dirPtrs; rw [if_pos hc]
    rw [e]
    refine Triple.pure (a := (⟨some n, d.count⟩ : DirStack)) fun h hh => ?_
    rw [star_emp, hc] at hh
    refine fact_star.2 ⟨⟨rfl, hc⟩, ?_⟩
    refine ⟨[], fact_star.2 ⟨⟨rfl, hc⟩, ?_⟩⟩
    simp only [List.map_nil, textsAt, star_emp]
    exact hh
  | some a =>
    rw [dirsAt_some hd]
    refine Triple.ex fun l => Triple.fact fun hl => ?_
    refine Triple.allocK fun n => ?_
    refine Triple.conv (show _ = pts a (.ptrs false l) ⋆ (pts n (.ptrs false (List.replicate d.count none)) ⋆ textsAt l (vs.map some)) by ac_rfl) ?_
    refine dirPtrsK hd (by omega) ?_
    have t := dupSlots_triple n false l (vs.map some) [] 0
    have hc : l.length = d.count := by omega
    simp only [List.nil_append, List.length_nil, Nat.add_zero, hc, List.replicate_zero, List.append_nil] at t
    refine Triple.conv (star_comm _ _) (t.call fun _ => ?_)
    refine Triple.pure fun h hh => ?_
    rw [star_ex] at hh
    obtain ⟨qs, hh⟩ := hh
    rw [star_assoc] at hh
    obtain ⟨hq, hh⟩ := fact_star.1 hh
    rw [star_ex]
    refine ⟨l, ?_⟩
    dsimp only
    rw [star_assoc, fact_true_star hl, star_comm, dirsAt_some rfl, star_ex]
    refine ⟨qs, ?_⟩
    dsimp only
    rw [star_assoc, fact_true_star ⟨by omega, hl.2⟩]
    have : ∀ A B C D : HProp, (A ⋆ B ⋆ C) ⋆ D = (A ⋆ C) ⋆ D ⋆ B := by intros; ac_rfl
    rw [this] at hh
    exact hh

/-- `pBat_DirStackFree`: nothing remains. -/
theorem dirStackFree_triple (d : DirStack) (vs : List (List Char)) : Triple (dirsAt d vs) (dirStackFree d) fun _ => hemp := by
  unfold dirStackFree
  cases hd : d.paths with
  | none =>
    rw [dirsAt_none hd]
    refine Triple.fact0 fun hv => ?_
    have e : dirPtrs d = pure [] := by unfold dirPtrs; rw [if_pos hv.2]
    rw [e]
    exact Triple.pure (a := ()) fun _ h => h
  | some a =>
    rw [dirsAt_some hd]
    refine Triple.ex fun l => Triple.fact fun hl => ?_
    refine dirPtrsK hd (by omega) ?_
    refine Triple.conv (star_comm _ _) ((freeSlots_triple _ _).call fun _ => ?_)
    rw [emp_star]
    exact Triple.free (by intro l h; cases h)

/-- `pBat_PushDir`. -/
theorem heapPushDir_triple (d : DirStack) (vs : List (List Char)) (t : List Char) :
    Triple (dirsAt d vs) (heapPushDir d t) fun n => dirsAt n (vs ++ [t]) := by
  unfold heapPushDir
  have rest : ∀ l : List (Option Nat), l.length = vs.length → d.count = vs.length →
      Triple (textsAt l (vs.map some)) (do
        let new ← halloc (.ptrs false (l ++ [none]))
        let q ← halloc (.text t)
        writePtr new l.length (some q)
        pure ⟨some new, d.count + 1⟩) fun n => dirsAt n (vs ++ [t]) := by
    intro l hl hc
    refine Triple.allocK fun n => Triple.allocK fun q => ?_
    refine Triple.conv (show _ = pts n (.ptrs false (l ++ [none])) ⋆ (pts q (.text t) ⋆ textsAt l (vs.map some)) by ac_rfl) ?_
    refine (Triple.writePtr (by simp)).call fun _ => Triple.pure fun h hh => ?_
    rw [dirsAt_some rfl]
    refine ⟨l ++ [some q], ?_⟩
    have e : (l ++ [none]).set l.length (some q) = l ++ [some q] := by
      rw [List.set_append_right _ _ (Nat.le_refl _)]; simp
    rw [e] at hh
    refine fact_star.2 ⟨⟨by simp [hl], by simp [hc]⟩, ?_⟩
    rw [List.map_append, textsAt_append _ _ _ _ (by simp [hl])]
    simp only [List.map_cons, List.map_nil, textsAt, star_emp]
    rwa [star_comm (textsAt _ _)]
  cases hd : d.paths with
  | none =>
    rw [dirsAt_none hd]
    refine Triple.fact0 fun hv => ?_
    obtain ⟨rfl, hc⟩ := hv
    have e : dirPtrs d = pure [] := by unfold dirPtrs; rw [if_pos hc]
    rw [e]
    exact rest [] rfl hc
  | some a =>
    rw [dirsAt_some hd]
    refine Triple.ex fun l => Triple.fact fun hl => ?_
    refine dirPtrsK hd (by omega) ?_
    unfold hfreeOpt
    refine (Triple.free (by intro l h; cases h)).call fun _ => ?_
    rw [emp_star]
    exact rest l hl.1 hl.2

/-- `pBat_PopDir`. -/
theorem heapPopDir_triple (d : DirStack) (vs : List (List Char)) :
    Triple (dirsAt d vs) (heapPopDir d) fun n => fact (n.1 = vs.getLast?) ⋆ dirsAt n.2 vs.dropLast := by
  unfold heapPopDir
  by_cases hc : d.count = 0
  · rw [if_pos hc]
    refine Triple.pure fun h hh => ?_
    have hv : vs = [] := by
      cases hd : d.paths with
      | none => rw [dirsAt_none hd] at hh; exact hh.1.1
      | some a =>
        rw [dirsAt_some hd] at hh
        obtain ⟨l, hh⟩ := hh
        exact List.eq_nil_of_length_eq_zero (by have := (fact_star.1 hh).1; omega)
    subst hv
    exact fact_star.2 ⟨rfl, hh⟩
  · rw [if_neg hc]
    cases hd : d.paths with
    | none =>
      rw [dirsAt_none hd]
      exact Triple.fact0 fun hv => absurd hv.2 hc
    | some a =>
      rw [dirsAt_some hd]
      refine Triple.ex fun l => Triple.fact fun hl => ?_
      refine dirPtrsK hd (by omega) ?_
      rcases List.eq_nil_or_concat vs with rfl | ⟨ws, w, rfl⟩
      · exact absurd hl.2 hc
      rcases List.eq_nil_or_concat l with rfl | ⟨l', x, rfl⟩
      · simp at hl
      rw [List.concat_eq_append, List.concat_eq_append] at *
      simp only [List.length_append, List.length_cons, List.length_nil, Nat.zero_add] at hl
      have hlen : l'.length = ws.length := by omega
      rw [List.map_append, textsAt_append _ _ _ _ (by simp [hlen])]
      cases x with
      | none => exact Triple.conv (show _ = textsAt [none] (List.map some [w]) ⋆ (pts a (.ptrs false (l' ++ [none])) ⋆ textsAt l' (ws.map some)) by ac_rfl) Triple.absurd
      | some p =>
        have e1 : (l' ++ [some p])[d.count - 1]? = some (some p) := by
          have : d.count - 1 = l'.length := by omega
          rw [this]; simp
        have e2 : (l' ++ [some p]).take (d.count - 1) = l' := by
          have : d.count - 1 = l'.length := by omega
          rw [this]; simp
        simp only [e1, e2, List.map_cons, List.map_nil, textsAt, star_emp]
        unfold shrink hfreeOpt
        have tail : ∀ (n : Option Nat), (∀ h, (dirsAt ⟨n, d.count - 1⟩ ws ⋆ hemp) h → (dirsAt ⟨n, d.count - 1⟩ ws) h) := by
          intro n h hh; rwa [star_emp] at hh
        have fin : ∀ n : Option Nat, Triple (pts p (.text w) ⋆ dirsAt ⟨n, d.count - 1⟩ ws) (do
            let t ← readText p
            hfree p
            pure (some t, (⟨n, d.count - 1⟩ : DirStack))) fun n => fact (n.1 = (ws ++ [w]).getLast?) ⋆ dirsAt n.2 (ws ++ [w]).dropLast := by
          intro n
          refine Triple.textK ((Triple.free (by intro l h; cases h)).call fun _ => Triple.pure fun h hh => ?_)
          rw [emp_star] at hh
          refine fact_star.2 ⟨by simp, ?_⟩
          simpa using hh
        rw [hd]
        have body : Triple (pts a (.ptrs false (l' ++ [some p])) ⋆ (textsAt l' (ws.map some) ⋆ pts p (.text w)))
            ((hfree a >>= fun _ => if l' = [] then pure none else halloc (.ptrs false l') >>= fun new => pure (some new)) >>= fun new => do
              let t ← readText p
              hfree p
              pure (some t, (⟨new, d.count - 1⟩ : DirStack))) fun n => fact (n.1 = (ws ++ [w]).getLast?) ⋆ dirsAt n.2 (ws ++ [w]).dropLast := by
          refine Triple.bind (Q := fun n => pts p (.text w) ⋆ dirsAt ⟨n, d.count - 1⟩ ws) ?_ fin
          refine (Triple.free (by intro l h; cases h)).call fun _ => ?_
          rw [emp_star]
          by_cases hl' : l' = []
          · rw [if_pos hl']
            subst hl'
            have hw : ws = [] := List.eq_nil_of_length_eq_zero (by simpa using hlen.symm)
            subst hw
            refine Triple.pure fun h hh => ?_
            simp only [List.map_nil, textsAt, emp_star] at hh
            rw [dirsAt_none rfl, star_comm, fact_true_star ⟨rfl, by have := hl.2; simp only [List.length_nil] at this; show d.count - 1 = 0; omega⟩]
            exact hh
          · rw [if_neg hl']
            refine Triple.allocK fun n => Triple.pure fun h hh => ?_
            rw [star_comm, dirsAt_some rfl, star_ex]
            refine ⟨l', ?_⟩
            dsimp only
            rw [star_assoc, fact_true_star ⟨hlen, by show d.count - 1 = ws.length; omega⟩, star_assoc]
            exact hh
        exact body

/-! ### Environments -/

theorem chainAt_nil {v : Option Nat} {h : Heap} (hc : chainAt v [] h) : v = none ∧ hemp h := by
  cases v with
  | none => exact ⟨rfl, hc⟩
  | some a => exact absurd hc.1 id

theorem allocEnvVar_triple (p q : Nat) (n c : List Char) :
    Triple (pts p (.text n) ⋆ pts q (.text c)) (allocEnvVar (some p) (some q)) fun a =>
      (pts p (.text n) ⋆ pts q (.text c)) ⋆ slotAt a ⟨some (n, c), false, []⟩ := by
  unfold allocEnvVar
  refine Triple.allocK fun a => ?_
  dsimp only
  refine Triple.conv (show _ = pts p (.text n) ⋆ (pts a (.var none none false none) ⋆ pts q (.text c)) by ac_rfl) ?_
  refine Triple.strdup.call fun p' => ?_
  refine Triple.conv (show _ = pts q (.text c) ⋆ (pts a (.var none none false none) ⋆ pts p (.text n) ⋆ pts p' (.text n)) by ac_rfl) ?_
  refine Triple.strdup.call fun q' => ?_
  refine Triple.conv (show _ = pts a (.var none none false none) ⋆ (pts q (.text c) ⋆ pts q' (.text c) ⋆ pts p (.text n) ⋆ pts p' (.text n)) by ac_rfl) ?_
  refine Triple.write.call fun _ => Triple.pure fun h hh => ?_
  unfold slotAt
  simp only
  rw [star_comm, star_ex]
  refine ⟨p', ?_⟩
  dsimp only
  rw [star_ex]
  refine ⟨q', ?_⟩
  dsimp only
  rw [star_ex]
  refine ⟨none, ?_⟩
  simp only [chainAt, star_emp]
  have : ∀ A B C D E : HProp, A ⋆ B ⋆ C ⋆ D ⋆ E = (A ⋆ E ⋆ C) ⋆ D ⋆ B := by intros; ac_rfl
  rwa [this] at hh

/-- One variable is copied. -/
theorem dupVar_triple (a : Nat) (s : Slot) : Triple (slotAt a s) (dupVar (some a)) fun q => slotAt a s ⋆ slotAt q s.fresh := by
  obtain ⟨live, inh, old⟩ := s
  unfold dupVar
  cases live with
  | none =>
    unfold slotAt
    simp only [Slot.fresh]
    refine Triple.fact fun ho => ?_
    refine Triple.conv (star_emp _).symm (Triple.read ?_)
    simp only [allocEnvVar]
    rw [star_emp]
    refine Triple.allocK fun q => Triple.pure fun h hh => ?_
    rw [fact_true_star ho, fact_true_star trivial, star_comm]
    exact hh
  | some nc =>
    unfold slotAt
    simp only [Slot.fresh]
    refine Triple.ex fun p => Triple.ex fun q => Triple.ex fun v => ?_
    refine Triple.read ?_
    simp only
    refine Triple.conv (show _ = (pts p (.text nc.1) ⋆ pts q (.text nc.2)) ⋆ (pts a (.var (some p) (some q) inh v) ⋆ chainAt v old) by ac_rfl) ?_
    refine ((allocEnvVar_triple p q nc.1 nc.2).frame _).post ?_
    intro n h hh
    rw [star_ex]
    refine ⟨p, ?_⟩
    dsimp only
    rw [star_ex]
    refine ⟨q, ?_⟩
    dsimp only
    rw [star_ex]
    refine ⟨v, ?_⟩
    dsimp only
    have : ∀ A B C D E : HProp, ((A ⋆ B) ⋆ C) ⋆ D ⋆ E = (D ⋆ A ⋆ B ⋆ E) ⋆ C := by intros; ac_rfl
    rw [this] at hh
    exact hh

theorem slotsAt_length : ∀ {ps : List (Option Nat)} {ss : List Slot} {h : Heap}, slotsAt ps ss h → ps.length = ss.length
  | [], [], _, _ => rfl
  | [], _ :: _, _, h => absurd h.1 id
  | none :: _, [], _, h => absurd h.1 id
  | some _ :: _, [], _, h => absurd h.1 id
  | none :: _, _ :: _, _, h => absurd h.1 id
  | some p :: ps, s :: ss, _, h => by
    unfold slotsAt at h
    obtain ⟨_, _, _, _, _, h⟩ := h
    simp [slotsAt_length h]

/-- The variables are copied one by one. -/
theorem envDupLoop_triple (new : Nat) : ∀ (ps : List (Option Nat)) (ss : List Slot) (pre : List (Option Nat)) (k : Nat),
    Triple (pts new (.ptrs false (pre ++ List.replicate (ps.length + k) none)) ⋆ slotsAt ps ss) (envDupLoop new pre.length ps)
      fun _ => hex fun qs => fact (qs.length = ps.length) ⋆ pts new (.ptrs false (pre ++ qs ++ List.replicate k none)) ⋆ slotsAt ps ss ⋆ slotsAt qs (ss.map Slot.fresh)
  | [], [], pre, k => by
    unfold envDupLoop
    refine Triple.pure fun h hh => ⟨[], ?_⟩
    show (Spec.fact (([] : List (Option Nat)).length = ([] : List (Option Nat)).length) ⋆ _) h
    rw [fact_true_star rfl]
    simp only [List.map_nil, slotsAt, star_emp, List.append_nil, List.length_nil, Nat.zero_add] at hh ⊢
    exact hh
  | [], _ :: _, _, _ => Triple.conv (star_comm _ _) Triple.absurd
  | none :: _, [], _, _ => Triple.conv (star_comm _ _) Triple.absurd
  | some _ :: _, [], _, _ => Triple.conv (star_comm _ _) Triple.absurd
  | none :: _, _ :: _, _, _ => Triple.conv (star_comm _ _) Triple.absurd
  | some p :: ps, v :: ss, pre, k => by
    unfold envDupLoop
    simp only [slotsAt]
    refine Triple.conv (show _ = slotAt p v ⋆ (pts new (.ptrs false (pre ++ List.replicate ((some p :: ps).length + k) none)) ⋆ slotsAt ps ss) by ac_rfl) ?_
    refine (dupVar_triple p v).call fun q => ?_
    refine Triple.conv (show _ = pts new (.ptrs false (pre ++ List.replicate ((some p :: ps).length + k) none)) ⋆
      (slotAt p v ⋆ slotAt q v.fresh ⋆ slotsAt ps ss) by ac_rfl) ?_
    refine (Triple.writePtr (by simp; omega)).call fun _ => ?_
    have e1 : (pre ++ List.replicate ((some p :: ps).length + k) none).set pre.length (some q) =
        pre ++ [some q] ++ List.replicate (ps.length + k) none := by
      have : (some p :: ps).length + k = (ps.length + k) + 1 := by simp only [List.length_cons]; omega
      rw [this, List.replicate_succ, List.set_append_right _ _ (Nat.le_refl _)]
      simp
    rw [e1]
    have ih := envDupLoop_triple new ps ss (pre ++ [some q]) k
    simp only [List.length_append, List.length_cons, List.length_nil, Nat.zero_add] at ih
    refine Triple.conv (show _ = (pts new (.ptrs false (pre ++ [some q] ++ List.replicate (ps.length + k) none)) ⋆ slotsAt ps ss) ⋆
      (slotAt p v ⋆ slotAt q v.fresh) by ac_rfl) ?_
    refine (ih.frame _).post ?_
    intro _ h hh
    rw [star_ex] at hh
    obtain ⟨qs, hq⟩ := hh
    rw [star_assoc] at hq
    obtain ⟨hl, hq⟩ := fact_star.1 hq
    refine ⟨some q :: qs, fact_star.2 ⟨by simp [hl], ?_⟩⟩
    have e2 : pre ++ [some q] ++ qs ++ List.replicate k none = pre ++ some q :: qs ++ List.replicate k none := by simp
    rw [e2] at hq
    simp only [List.map_cons, slotsAt]
    have : ∀ A B C D E : HProp, (A ⋆ B ⋆ C) ⋆ D ⋆ E = A ⋆ (D ⋆ B) ⋆ E ⋆ C := by intros; ac_rfl
    rw [this] at hq
    exact hq

/-- `pBat_EnvDup`. -/
theorem heapEnvDup_triple (e : Nat) (ss : List Slot) :
    Triple (envAt e ss) (heapEnvDup e) fun n => envAt e ss ⋆ envAt n (ss.map Slot.fresh) := by
  unfold envAt
  refine Triple.ex fun buf => Triple.ex fun l => Triple.ex fun junk => ?_
  unfold heapEnvDup
  refine Triple.read ?_
  simp only
  refine Triple.allocK fun n => Triple.allocK fun nb => ?_
  refine Triple.conv (show _ = pts buf (.ptrs false (l ++ junk)) ⋆ (pts nb (.ptrs false (List.replicate (l ++ junk).length none)) ⋆
    pts n (.envbuf (l ++ junk).length 0 0) ⋆ pts e (.envbuf (l ++ junk).length l.length buf) ⋆ slotsAt l ss) by ac_rfl) ?_
  refine Triple.ptrsK ?_
  have e1 : (l ++ junk).take l.length = l := by simp
  rw [e1]
  have t := envDupLoop_triple nb l ss [] junk.length
  simp only [List.nil_append, List.length_nil] at t
  rw [← List.length_append] at t
  refine Triple.conv (show _ = (pts nb (.ptrs false (List.replicate (l ++ junk).length none)) ⋆ slotsAt l ss) ⋆ (pts buf (.ptrs false (l ++ junk)) ⋆
    pts n (.envbuf (l ++ junk).length 0 0) ⋆ pts e (.envbuf (l ++ junk).length l.length buf)) by ac_rfl) ?_
  refine t.call fun _ => ?_
  rw [star_ex]
  refine Triple.ex fun qs => ?_
  rw [star_assoc]
  refine Triple.fact fun hq => ?_
  refine Triple.conv (show _ = pts n (.envbuf (l ++ junk).length 0 0) ⋆ (pts nb (.ptrs false (qs ++ List.replicate junk.length none)) ⋆
    slotsAt l ss ⋆ slotsAt qs (ss.map Slot.fresh) ⋆ pts buf (.ptrs false (l ++ junk)) ⋆ pts e (.envbuf (l ++ junk).length l.length buf)) by ac_rfl) ?_
  refine Triple.write.call fun _ => Triple.pure fun h hh => ?_
  have e2 : (l ++ junk).length = (qs ++ List.replicate junk.length none).length := by simp [hq]
  rw [star_ex]
  refine ⟨buf, ?_⟩
  dsimp only
  rw [star_ex]
  refine ⟨l, ?_⟩
  dsimp only
  rw [star_ex]
  refine ⟨junk, ?_⟩
  dsimp only
  rw [star_comm, star_ex]
  refine ⟨nb, ?_⟩
  dsimp only
  rw [star_ex]
  refine ⟨qs, ?_⟩
  dsimp only
  rw [star_ex]
  refine ⟨List.replicate junk.length none, ?_⟩
  dsimp only
  rw [← e2, hq]
  have : ∀ A B C D E F : HProp, A ⋆ B ⋆ C ⋆ D ⋆ E ⋆ F = (A ⋆ B ⋆ D) ⋆ F ⋆ E ⋆ C := by intros; ac_rfl
  rwa [this] at hh

/-- The saved values, which `pBat_EnvFree` forgets. -/
def chainsOf : List Slot → HProp
  | [] => hemp
  | s :: ss => (hex fun v => chainAt v s.old) ⋆ chainsOf ss

theorem freeVar_triple (a : Nat) (s : Slot) : Triple (slotAt a s) (freeVar (some a)) fun _ => hex fun v => chainAt v s.old := by
  obtain ⟨live, inh, old⟩ := s
  unfold freeVar slotAt
  cases live with
  | none =>
    simp only
    refine Triple.fact fun ho => ?_
    refine Triple.conv (star_emp _).symm (Triple.read ?_)
    simp only [hfreeOpt]
    rw [star_emp]
    have : Triple (pts a (.var none none inh none)) (hfree a) fun _ => hemp := Triple.free (by intro l h; cases h)
    refine this.post fun _ h hh => ⟨none, ?_⟩
    subst ho
    exact hh
  | some nc =>
    simp only
    refine Triple.ex fun p => Triple.ex fun q => Triple.ex fun v => ?_
    refine Triple.read ?_
    simp only [hfreeOpt]
    refine Triple.conv (show _ = pts p (.text nc.1) ⋆ (pts q (.text nc.2) ⋆ pts a (.var (some p) (some q) inh v) ⋆ chainAt v old) by ac_rfl) ?_
    refine (Triple.free (by intro l h; cases h)).call fun _ => ?_
    rw [emp_star]
    refine (Triple.free (by intro l h; cases h)).call fun _ => ?_
    rw [emp_star]
    refine ((Triple.free (by intro l h; cases h)).frame _).post fun _ h hh => ?_
    rw [emp_star] at hh
    exact ⟨v, hh⟩

theorem freeVars_triple : ∀ (ps : List (Option Nat)) (ss : List Slot), Triple (slotsAt ps ss) (freeVars ps) fun _ => chainsOf ss
  | [], [] => Triple.pure fun _ h => h
  | [], _ :: _ => Triple.absurd0
  | none :: _, [] => Triple.absurd0
  | some _ :: _, [] => Triple.absurd0
  | none :: _, _ :: _ => Triple.absurd0
  | some p :: ps, s :: ss => by
    unfold freeVars
    simp only [slotsAt]
    refine (freeVar_triple p s).call fun _ => ?_
    exact (freeVars_triple ps ss).frameL

/-- `pBat_EnvFree`: one record and the saved values remain. -/
theorem heapEnvFree_triple (e : Nat) (ss : List Slot) :
    Triple (envAt e ss) (heapEnvFree e) fun _ => (hex fun o => pts e o) ⋆ chainsOf ss := by
  unfold envAt
  refine Triple.ex fun buf => Triple.ex fun l => Triple.ex fun junk => ?_
  unfold heapEnvFree
  refine Triple.read ?_
  simp only
  refine Triple.conv (show _ = pts buf (.ptrs false (l ++ junk)) ⋆ (slotsAt l ss ⋆ pts e (.envbuf (l ++ junk).length l.length buf)) by ac_rfl) ?_
  refine Triple.ptrsK ?_
  have e1 : (l ++ junk).take l.length = l := by simp
  rw [e1]
  refine Triple.conv (show _ = slotsAt l ss ⋆ (pts buf (.ptrs false (l ++ junk)) ⋆ pts e (.envbuf (l ++ junk).length l.length buf)) by ac_rfl) ?_
  refine (freeVars_triple l ss).call fun _ => ?_
  refine Triple.conv (show _ = pts buf (.ptrs false (l ++ junk)) ⋆ (pts e (.envbuf (l ++ junk).length l.length buf) ⋆ chainsOf ss) by ac_rfl) ?_
  refine ((Triple.free (by intro l h; cases h)).frame _).post fun _ h hh => ?_
  rw [emp_star] at hh
  rw [star_ex]
  exact ⟨_, hh⟩

theorem chainsOf_fresh (ss : List Slot) : ∀ h, chainsOf (ss.map Slot.fresh) h → hemp h := by
  induction ss with
  | nil => exact fun h hh => hh
  | cons s ss ih =>
    intro h hh
    simp only [List.map_cons, chainsOf, Slot.fresh] at hh
    have := star_mono (Q := chainsOf (ss.map Slot.fresh)) (fun h (hc : (hex fun v => chainAt v []) h) => by
      obtain ⟨v, hc⟩ := hc
      exact (chainAt_nil hc).2) ih h hh
    rwa [emp_star] at this

/-! ### The table of commands -/

theorem dupProc_triple (d : Bool) (q : Nat) (b : Nat ⊕ List Char) :
    Triple (bodyAt d q b) (dupProc d q) fun q' => bodyAt d q b ⋆ bodyAt d q' b := by
  unfold dupProc
  cases b with
  | inl c =>
    refine Triple.fact0 fun hd => ?_
    rw [hd.1]
    refine Triple.pure fun h hh => ?_
    exact fact_star.2 ⟨⟨rfl, hd.2⟩, ⟨rfl, hd.2⟩, hh⟩
  | inr t =>
    refine Triple.fact fun hd => ?_
    rw [hd]
    refine Triple.strdup.post fun q' h hh => ?_
    show ((Spec.fact (true = true) ⋆ _) ⋆ (Spec.fact (true = true) ⋆ _)) h
    rw [fact_true_star rfl, fact_true_star rfl]
    exact hh

theorem freeProc_triple (d : Bool) (q : Nat) (b : Nat ⊕ List Char) :
    Triple (bodyAt d q b) (hfreeOpt (if d then some q else none)) fun _ => hemp := by
  cases b with
  | inl c =>
    refine Triple.fact0 fun hd => ?_
    rw [hd.1]
    exact Triple.pure fun h hh => hh
  | inr t =>
    refine Triple.fact fun hd => ?_
    rw [hd]
    exact Triple.free (by intro l h; cases h)

theorem dupCommands_step (f p : Nat) (n : List Char) (b : Nat ⊕ List Char) (l r : CTree)
    (hl : ∀ x, Triple (treeAt x l) (dupBranch (dupCommands f) x) fun y => treeAt x l ⋆ treeAt y l)
    (hr : ∀ x, Triple (treeAt x r) (dupBranch (dupCommands f) x) fun y => treeAt x r ⋆ treeAt y r) :
    Triple (treeAt (some p) (.node n b l r)) (dupCommands (f + 1) p) fun q =>
      treeAt (some p) (.node n b l r) ⋆ treeAt (some q) (.node n b l r) := by
  unfold dupCommands
  simp only [treeAt]
  refine Triple.ex fun pn => Triple.ex fun d => Triple.ex fun pr => Triple.ex fun x => Triple.ex fun y => ?_
  refine Triple.read ?_
  simp only
  refine Triple.allocK fun q => ?_
  refine Triple.conv (show _ = pts pn (.text n) ⋆ (pts q (.node 0 false 0 none none) ⋆ pts p (.node pn d pr x y) ⋆ bodyAt d pr b ⋆ treeAt x l ⋆ treeAt y r) by ac_rfl) ?_
  refine Triple.strdup.call fun pn' => ?_
  refine Triple.conv (show _ = bodyAt d pr b ⋆ (pts pn (.text n) ⋆ pts pn' (.text n) ⋆ pts q (.node 0 false 0 none none) ⋆ pts p (.node pn d pr x y) ⋆ treeAt x l ⋆ treeAt y r) by ac_rfl) ?_
  refine (dupProc_triple d pr b).call fun pr' => ?_
  refine Triple.conv (show _ = treeAt x l ⋆ (bodyAt d pr b ⋆ bodyAt d pr' b ⋆ pts pn (.text n) ⋆ pts pn' (.text n) ⋆ pts q (.node 0 false 0 none none) ⋆ pts p (.node pn d pr x y) ⋆ treeAt y r) by ac_rfl) ?_
  refine (hl x).call fun x' => ?_
  refine Triple.conv (show _ = treeAt y r ⋆ (treeAt x l ⋆ treeAt x' l ⋆ bodyAt d pr b ⋆ bodyAt d pr' b ⋆ pts pn (.text n) ⋆ pts pn' (.text n) ⋆ pts q (.node 0 false 0 none none) ⋆ pts p (.node pn d pr x y)) by ac_rfl) ?_
  refine (hr y).call fun y' => ?_
  refine Triple.conv (show _ = pts q (.node 0 false 0 none none) ⋆ (treeAt y r ⋆ treeAt y' r ⋆ treeAt x l ⋆ treeAt x' l ⋆ bodyAt d pr b ⋆ bodyAt d pr' b ⋆ pts pn (.text n) ⋆ pts pn' (.text n) ⋆ pts p (.node pn d pr x y)) by ac_rfl) ?_
  refine Triple.write.call fun _ => Triple.pure fun h hh => ?_
  have : ∀ A B C D E F G H I J : HProp, A ⋆ B ⋆ C ⋆ D ⋆ E ⋆ F ⋆ G ⋆ H ⋆ I ⋆ J = (J ⋆ H ⋆ F ⋆ D ⋆ B) ⋆ A ⋆ I ⋆ G ⋆ E ⋆ C := by intros; ac_rfl
  rw [this] at hh
  refine star_mono (fun h hh => ⟨pn, d, pr, x, y, hh⟩) (fun h hh => ⟨pn', d, pr', x', y', hh⟩) h hh

theorem treeAt_nil_some {a : Nat} : treeAt (some a) .nil = Spec.fact False := rfl

theorem treeAt_none_node {n : List Char} {b : Nat ⊕ List Char} {l r : CTree} : treeAt none (.node n b l r) = Spec.fact False := rfl

/-- `pBat_DuplicateCommandList`. -/
theorem dupBranch_triple (t : CTree) : ∀ (f : Nat) (x : Option Nat), t.depth ≤ f →
    Triple (treeAt x t) (dupBranch (dupCommands f) x) fun y => treeAt x t ⋆ treeAt y t := by
  induction t with
  | nil =>
    intro f x _
    cases x with
    | none =>
      unfold dupBranch
      refine Triple.pure fun h hh => ?_
      show (hemp ⋆ hemp) h
      rw [emp_star]
      exact hh
    | some a => exact Triple.absurd0
  | node n b l r hl hr =>
    intro f x hd
    cases x with
    | none => exact Triple.absurd0
    | some p =>
      unfold dupBranch
      simp only [CTree.depth] at hd
      cases f with
      | zero => omega
      | succ f =>
        refine (dupCommands_step f p n b l r (fun x => hl f x (by omega)) (fun x => hr f x (by omega))).bind fun q => ?_
        exact Triple.pure fun h hh => hh

theorem dupCommands_triple (t : CTree) (f p : Nat) (hd : t.depth ≤ f) :
    Triple (treeAt (some p) t) (dupCommands f p) fun q => treeAt (some p) t ⋆ treeAt (some q) t := by
  cases t with
  | nil => exact Triple.absurd0
  | node n b l r =>
    simp only [CTree.depth] at hd
    cases f with
    | zero => omega
    | succ f => exact dupCommands_step f p n b l r (fun x => dupBranch_triple l f x (by omega)) (fun x => dupBranch_triple r f x (by omega))

theorem freeCommands_step (f p : Nat) (n : List Char) (b : Nat ⊕ List Char) (l r : CTree)
    (hl : ∀ x, Triple (treeAt x l) (freeBranch (freeCommands f) x) fun _ => hemp)
    (hr : ∀ x, Triple (treeAt x r) (freeBranch (freeCommands f) x) fun _ => hemp) :
    Triple (treeAt (some p) (.node n b l r)) (freeCommands (f + 1) p) fun _ => hemp := by
  unfold freeCommands
  simp only [treeAt]
  refine Triple.ex fun pn => Triple.ex fun d => Triple.ex fun pr => Triple.ex fun x => Triple.ex fun y => ?_
  refine Triple.read ?_
  simp only
  refine Triple.conv (show _ = pts pn (.text n) ⋆ (bodyAt d pr b ⋆ treeAt x l ⋆ treeAt y r ⋆ pts p (.node pn d pr x y)) by ac_rfl) ?_
  refine (Triple.free (by intro l h; cases h)).call fun _ => ?_
  rw [emp_star]
  refine (freeProc_triple d pr b).call fun _ => ?_
  rw [emp_star]
  refine (hl x).call fun _ => ?_
  rw [emp_star]
  refine (hr y).call fun _ => ?_
  rw [emp_star]
  exact Triple.free (by intro l h; cases h)

theorem freeBranch_triple (t : CTree) : ∀ (f : Nat) (x : Option Nat), t.depth ≤ f →
    Triple (treeAt x t) (freeBranch (freeCommands f) x) fun _ => hemp := by
  induction t with
  | nil =>
    intro f x _
    cases x with
    | none =>
      unfold freeBranch
      exact Triple.pure fun h hh => hh
    | some a => exact Triple.absurd0
  | node n b l r hl hr =>
    intro f x hd
    cases x with
    | none => exact Triple.absurd0
    | some p =>
      unfold freeBranch
      simp only [CTree.depth] at hd
      cases f with
      | zero => omega
      | succ f => exact freeCommands_step f p n b l r (fun x => hl f x (by omega)) (fun x => hr f x (by omega))

/-- `pBat_FreeCommandList`: nothing remains. -/
theorem freeCommands_triple (t : CTree) (f p : Nat) (hd : t.depth ≤ f) :
    Triple (treeAt (some p) t) (freeCommands f p) fun _ => hemp := by
  cases t with
  | nil => exact Triple.absurd0
  | node n b l r =>
    simp only [CTree.depth] at hd
    cases f with
    | zero => omega
    | succ f => exact freeCommands_step f p n b l r (fun x => freeBranch_triple l f x (by omega)) (fun x => freeBranch_triple r f x (by omega))

/-! ### Instances -/

/-- `pBat_CloneInstance`. -/
theorem cloneInst_triple (f : Nat) (st : Bool) (i : Inst) (v : IView) (hd : v.commands.depth ≤ f) :
    Triple (instAt st i v) (cloneInst f i) fun j => instAt st i v ⋆ instAt false j v.copy := by
  unfold instAt cloneInst
  refine Triple.fact fun hset => ?_
  refine (dupCommands_triple v.commands f i.commands hd).call fun c => ?_
  refine Triple.conv (show _ = localsAt i.locals st v.locals ⋆ ((treeAt (some i.commands) v.commands ⋆ treeAt (some c) v.commands) ⋆
    localsAt i.args st v.args ⋆ dirsAt i.dirs v.dirs ⋆ envAt i.env v.env ⋆ stackAt i.envStack v.stack) by ac_rfl) ?_
  refine (dupLocal_triple _ _ _).call fun l => ?_
  refine Triple.conv (show _ = localsAt i.args st v.args ⋆ ((localsAt i.locals st v.locals ⋆ localsAt l false v.locals) ⋆
    (treeAt (some i.commands) v.commands ⋆ treeAt (some c) v.commands) ⋆
    dirsAt i.dirs v.dirs ⋆ envAt i.env v.env ⋆ stackAt i.envStack v.stack) by ac_rfl) ?_
  refine (dupLocal_triple _ _ _).call fun a => ?_
  refine Triple.conv (show _ = dirsAt i.dirs v.dirs ⋆ ((localsAt i.args st v.args ⋆ localsAt a false v.args) ⋆
    (localsAt i.locals st v.locals ⋆ localsAt l false v.locals) ⋆
    (treeAt (some i.commands) v.commands ⋆ treeAt (some c) v.commands) ⋆
    envAt i.env v.env ⋆ stackAt i.envStack v.stack) by ac_rfl) ?_
  refine (dirStackCopy_triple _ _).call fun d => ?_
  refine Triple.conv (show _ = envAt i.env v.env ⋆ ((dirsAt i.dirs v.dirs ⋆ dirsAt d v.dirs) ⋆ (localsAt i.args st v.args ⋆ localsAt a false v.args) ⋆
    (localsAt i.locals st v.locals ⋆ localsAt l false v.locals) ⋆
    (treeAt (some i.commands) v.commands ⋆ treeAt (some c) v.commands) ⋆ stackAt i.envStack v.stack) by ac_rfl) ?_
  refine (heapEnvDup_triple _ _).call fun e => Triple.pure fun h hh => ?_
  rw [fact_true_star hset]
  simp only [IView.copy, stackAt]
  rw [star_comm, fact_true_star hset, star_emp]
  have : ∀ A B C D E F G H I J K : HProp, (A ⋆ B) ⋆ (C ⋆ D) ⋆ (E ⋆ F) ⋆ (G ⋆ H) ⋆ (I ⋆ J) ⋆ K =
      (J ⋆ H ⋆ F ⋆ D ⋆ B) ⋆ (I ⋆ G ⋆ E ⋆ C ⋆ A ⋆ K) := by intros; ac_rfl
  rw [this] at hh
  exact hh

/-- The records and saved values left behind when environments are freed. -/
def leftOver (e : Nat) (ss : List Slot) : HProp := (hex fun o => pts e o) ⋆ chainsOf ss

/-- The same for all environments of an instance. -/
def leftAll (e : Nat) (ss : List Slot) : List (Nat × Bool × Bool) → List (List Slot × Bool × Bool) → HProp
  | [], [] => leftOver e ss
  | x :: xs, v :: vs => leftOver e ss ⋆ leftAll x.1 v.1 xs vs
  | _, _ => Spec.fact False

theorem freeEnvs_triple : ∀ (xs : List (Nat × Bool × Bool)) (vs : List (List Slot × Bool × Bool)) (e : Nat) (ss : List Slot),
    Triple (envAt e ss ⋆ stackAt xs vs) (freeEnvs e xs) fun _ => leftAll e ss xs vs
  | [], [], e, ss => by
    unfold freeEnvs
    simp only [stackAt, star_emp]
    exact heapEnvFree_triple e ss
  | [], _ :: _, _, _ => Triple.conv (star_comm _ _) Triple.absurd
  | _ :: _, [], _, _ => Triple.conv (star_comm _ _) Triple.absurd
  | x :: xs, v :: vs, e, ss => by
    unfold freeEnvs
    simp only [stackAt]
    refine (heapEnvFree_triple e ss).call fun _ => ?_
    refine Triple.conv (show _ = fact (x.2 = v.2) ⋆ (leftOver e ss ⋆ (envAt x.1 v.1 ⋆ stackAt xs vs)) by unfold leftOver; ac_rfl) ?_
    refine Triple.fact fun _ => ?_
    exact (freeEnvs_triple xs vs x.1 v.1).frameL

/-- `pBat_Exit`. -/
theorem instExit_triple (f : Nat) (i : Inst) (v : IView) (hd : v.commands.depth ≤ f) :
    Triple (instAt false i v) (instExit f i) fun _ => leftAll i.env v.env i.envStack v.stack := by
  unfold instAt instExit
  refine Triple.fact fun _ => ?_
  refine (freeCommands_triple v.commands f i.commands hd).call fun _ => ?_
  rw [emp_star]
  refine (freeLocalBlock_triple _ _).call fun _ => ?_
  rw [emp_star]
  refine (freeLocalBlock_triple _ _).call fun _ => ?_
  rw [emp_star]
  refine Triple.conv (show _ = (envAt i.env v.env ⋆ stackAt i.envStack v.stack) ⋆ dirsAt i.dirs v.dirs by ac_rfl) ?_
  refine (freeEnvs_triple _ _ _ _).call fun _ => ?_
  refine (dirStackFree_triple _ _).frameL.post fun _ h hh => ?_
  rwa [star_emp] at hh

/-! ### Commands -/

theorem star_lost {P Q : HProp} (hp : ∀ h, P h → (Q ⋆ lost) h) (h : Heap) (hh : (P ⋆ lost) h) : (Q ⋆ lost) h := by
  obtain ⟨h1, h2, ha, rfl, h1p, _⟩ := hh
  have : ((Q ⋆ lost) ⋆ lost) (both h1 h2) := ⟨h1, h2, ha, rfl, hp _ h1p, trivial⟩
  rw [star_assoc] at this
  exact star_mono (fun _ h => h) (fun _ _ => trivial) _ this

theorem to_lost {P : HProp} (h : Heap) (hh : P h) : (P ⋆ lost) h := by
  rw [← star_emp P] at hh
  exact star_mono (fun _ h => h) (fun _ _ => trivial) h hh

/-- Each command changes its own instance. -/
theorem op_triple (o : COp) (st : Bool) (i : Inst) (v : IView) :
    Triple (instAt st i v) (o.run i) fun i' => instAt st i' (o.apply v) ⋆ lost := by
  unfold instAt
  refine Triple.fact fun hset => ?_
  cases o with
  | setLocal c t =>
    refine Triple.conv (show _ = localsAt i.locals st v.locals ⋆ (treeAt (some i.commands) v.commands ⋆ localsAt i.args st v.args ⋆
      dirsAt i.dirs v.dirs ⋆ envAt i.env v.env ⋆ stackAt i.envStack v.stack) by ac_rfl) ?_
    refine (heapSetLocal_triple _ _ _ c t).call fun _ => Triple.pure fun h hh => to_lost h ?_
    have e : COp.apply (.setLocal c t) v = { v with locals := if c < 128 ∧ 32 < c then v.locals.set c t else v.locals } := by
      unfold COp.apply
      by_cases hc : c < 128 ∧ 32 < c
      · simp only [if_pos hc]
      · simp only [if_neg hc]
    rw [e]
    simp only
    rw [fact_true_star hset]
    have : ∀ A B C D E F : HProp, A ⋆ B ⋆ C ⋆ D ⋆ E ⋆ F = B ⋆ A ⋆ C ⋆ D ⋆ E ⋆ F := by intros; ac_rfl
    rwa [this] at hh
  | setArg c t =>
    refine Triple.conv (show _ = localsAt i.args st v.args ⋆ (treeAt (some i.commands) v.commands ⋆ localsAt i.locals st v.locals ⋆
      dirsAt i.dirs v.dirs ⋆ envAt i.env v.env ⋆ stackAt i.envStack v.stack) by ac_rfl) ?_
    refine (heapSetLocal_triple _ _ _ c t).call fun _ => Triple.pure fun h hh => to_lost h ?_
    have e : COp.apply (.setArg c t) v = { v with args := if c < 128 ∧ 32 < c then v.args.set c t else v.args } := by
      unfold COp.apply
      by_cases hc : c < 128 ∧ 32 < c
      · simp only [if_pos hc]
      · simp only [if_neg hc]
    rw [e]
    simp only
    rw [fact_true_star hset]
    have : ∀ A B C D E F : HProp, A ⋆ B ⋆ C ⋆ D ⋆ E ⋆ F = B ⋆ C ⋆ A ⋆ D ⋆ E ⋆ F := by intros; ac_rfl
    rwa [this] at hh
  | pushDir t =>
    refine Triple.conv (show _ = dirsAt i.dirs v.dirs ⋆ (treeAt (some i.commands) v.commands ⋆ localsAt i.locals st v.locals ⋆
      localsAt i.args st v.args ⋆ envAt i.env v.env ⋆ stackAt i.envStack v.stack) by ac_rfl) ?_
    refine (heapPushDir_triple _ _ t).call fun d => Triple.pure fun h hh => to_lost h ?_
    simp only [COp.apply]
    rw [fact_true_star hset]
    have : ∀ A B C D E F : HProp, A ⋆ B ⋆ C ⋆ D ⋆ E ⋆ F = B ⋆ C ⋆ D ⋆ A ⋆ E ⋆ F := by intros; ac_rfl
    rwa [this] at hh
  | popDir =>
    refine Triple.conv (show _ = dirsAt i.dirs v.dirs ⋆ (treeAt (some i.commands) v.commands ⋆ localsAt i.locals st v.locals ⋆
      localsAt i.args st v.args ⋆ envAt i.env v.env ⋆ stackAt i.envStack v.stack) by ac_rfl) ?_
    refine (heapPopDir_triple _ _).call fun d => ?_
    rw [star_assoc]
    refine Triple.fact fun _ => Triple.pure fun h hh => to_lost h ?_
    simp only [COp.apply]
    rw [fact_true_star hset]
    have : ∀ A B C D E F : HProp, A ⋆ B ⋆ C ⋆ D ⋆ E ⋆ F = B ⋆ C ⋆ D ⋆ A ⋆ E ⋆ F := by intros; ac_rfl
    rwa [this] at hh
  | pushEnv =>
    refine Triple.conv (show _ = envAt i.env v.env ⋆ (treeAt (some i.commands) v.commands ⋆ localsAt i.locals st v.locals ⋆
      localsAt i.args st v.args ⋆ dirsAt i.dirs v.dirs ⋆ stackAt i.envStack v.stack) by ac_rfl) ?_
    refine (heapEnvDup_triple _ _).call fun e => Triple.pure fun h hh => to_lost h ?_
    simp only [COp.apply, stackAt]
    rw [fact_true_star hset, hset, fact_true_star rfl]
    have : ∀ A B C D E F G : HProp, (A ⋆ B) ⋆ C ⋆ D ⋆ E ⋆ F ⋆ G = C ⋆ D ⋆ E ⋆ F ⋆ B ⋆ A ⋆ G := by intros; ac_rfl
    rwa [this] at hh
  | popEnv =>
    show Triple _ (heapPopEnv i) _
    unfold heapPopEnv
    cases hs : i.envStack with
    | nil =>
      cases hv : v.stack with
      | nil =>
        refine Triple.pure fun h hh => to_lost h ?_
        simp only [COp.apply, hv, hs]
        rw [fact_true_star hset]
        exact hh
      | cons a as =>
        exact Triple.conv (show _ = Spec.fact False ⋆ (treeAt (some i.commands) v.commands ⋆ localsAt i.locals st v.locals ⋆
          localsAt i.args st v.args ⋆ dirsAt i.dirs v.dirs ⋆ envAt i.env v.env) by show _ ⋆ _ ⋆ _ ⋆ _ ⋆ _ ⋆ Spec.fact False = _; ac_rfl) Triple.absurd
    | cons x xs =>
      cases hv : v.stack with
      | nil =>
        exact Triple.conv (show _ = Spec.fact False ⋆ (treeAt (some i.commands) v.commands ⋆ localsAt i.locals st v.locals ⋆
          localsAt i.args st v.args ⋆ dirsAt i.dirs v.dirs ⋆ envAt i.env v.env) by show _ ⋆ _ ⋆ _ ⋆ _ ⋆ _ ⋆ Spec.fact False = _; ac_rfl) Triple.absurd
      | cons a as =>
        simp only [stackAt]
        refine Triple.conv (show _ = Spec.fact (x.2 = a.2) ⋆ (envAt i.env v.env ⋆ (treeAt (some i.commands) v.commands ⋆ localsAt i.locals st v.locals ⋆
          localsAt i.args st v.args ⋆ dirsAt i.dirs v.dirs ⋆ envAt x.1 a.1 ⋆ stackAt xs as)) by ac_rfl) ?_
        refine Triple.fact fun hxa => ?_
        refine (heapEnvFree_triple _ _).call fun _ => Triple.pure fun h hh => ?_
        rw [star_comm] at hh
        refine star_mono ?_ (fun _ _ => trivial) h hh
        intro h hh
        simp only [COp.apply, hv]
        rw [fact_true_star (by rw [hset, hxa])]
        exact hh
  | settings f =>
    refine Triple.pure fun h hh => to_lost h ?_
    simp only [COp.apply]
    rw [fact_true_star (by rw [hset])]
    exact hh

/-- All commands of a thread. -/
theorem ops_triple (os : List COp) : ∀ (st : Bool) (i : Inst) (v : IView),
    Triple (instAt st i v) (runOps os i) fun i' => instAt st i' (applyOps os v) ⋆ lost := by
  induction os with
  | nil => exact fun st i v => Triple.pure fun h hh => to_lost h hh
  | cons o os ih =>
    intro st i v
    refine (op_triple o st i v).bind fun i' => ?_
    refine ((ih st i' (o.apply v)).frame lost).post fun a h hh => ?_
    exact star_lost (fun _ h => h) h hh

theorem apply_commands (o : COp) (v : IView) : (o.apply v).commands = v.commands := by
  cases o <;> simp only [COp.apply] <;> split <;> rfl

theorem applyOps_commands (os : List COp) : ∀ v : IView, (applyOps os v).commands = v.commands := by
  induction os with
  | nil => exact fun _ => rfl
  | cons o os ih => exact fun v => (ih _).trans (apply_commands o v)

/-! ### Ending asks for no memory -/

theorem noAlloc_hfree (a : Nat) : NoAlloc (hfree a) := trivial

theorem noAlloc_hfreeOpt (p : Option Nat) : NoAlloc (hfreeOpt p) := by cases p <;> trivial

theorem noAlloc_readPtrs (a : Nat) : NoAlloc (readPtrs a) := by
  unfold readPtrs
  intro o
  cases o <;> trivial

theorem noAlloc_freeSlots (ps : List (Option Nat)) : NoAlloc (freeSlots ps) := by
  induction ps with
  | nil => trivial
  | cons p ps ih => exact (noAlloc_hfreeOpt p).bind fun _ => ih

theorem noAlloc_freeLocalBlock (b : Nat) : NoAlloc (freeLocalBlock b) :=
  (noAlloc_readPtrs b).bind fun _ => (noAlloc_freeSlots _).bind fun _ => noAlloc_hfree b

theorem noAlloc_dirStackFree (d : DirStack) : NoAlloc (dirStackFree d) := by
  refine NoAlloc.bind ?_ fun _ => (noAlloc_freeSlots _).bind fun _ => noAlloc_hfreeOpt _
  unfold dirPtrs
  split
  · trivial
  · split
    · trivial
    · exact noAlloc_readPtrs _

theorem noAlloc_freeVars (ps : List (Option Nat)) : NoAlloc (freeVars ps) := by
  induction ps with
  | nil => trivial
  | cons p ps ih =>
    refine NoAlloc.bind ?_ fun _ => ih
    unfold freeVar
    cases p with
    | none => trivial
    | some a =>
      intro o
      cases o with
      | var n c i v => exact (noAlloc_hfreeOpt n).bind fun _ => (noAlloc_hfreeOpt c).bind fun _ => noAlloc_hfree a
      | _ => trivial

theorem noAlloc_heapEnvFree (e : Nat) : NoAlloc (heapEnvFree e) := by
  intro o
  cases o with
  | envbuf nb n b => exact (noAlloc_readPtrs b).bind fun _ => (noAlloc_freeVars _).bind fun _ => noAlloc_hfree b
  | _ => trivial

theorem noAlloc_freeEnvs (xs : List (Nat × Bool × Bool)) : ∀ e, NoAlloc (freeEnvs e xs) := by
  induction xs with
  | nil => exact noAlloc_heapEnvFree
  | cons x xs ih => exact fun e => (noAlloc_heapEnvFree e).bind fun _ => ih x.1

theorem noAlloc_freeCommands (f : Nat) : (∀ p, NoAlloc (freeCommands f p)) ∧ ∀ x, NoAlloc (freeBranch (freeCommands f) x) := by
  have br : ∀ f, (∀ p, NoAlloc (freeCommands f p)) → ∀ x, NoAlloc (freeBranch (freeCommands f) x) := by
    intro f h x
    cases x with
    | none => unfold freeBranch; trivial
    | some p => unfold freeBranch; exact h p
  induction f with
  | zero =>
    have : ∀ p, NoAlloc (freeCommands 0 p) := fun p => by unfold freeCommands; trivial
    exact ⟨this, br 0 this⟩
  | succ f ih =>
    have : ∀ p, NoAlloc (freeCommands (f + 1) p) := by
      intro p
      unfold freeCommands
      intro o
      cases o with
      | node n d pr l r =>
        exact (noAlloc_hfree n).bind fun _ => (noAlloc_hfreeOpt _).bind fun _ => (ih.2 l).bind fun _ => (ih.2 r).bind fun _ => noAlloc_hfree p
      | _ => trivial
    exact ⟨this, br (f + 1) this⟩

theorem noAlloc_instExit (f : Nat) (i : Inst) : NoAlloc (instExit f i) :=
  ((noAlloc_freeCommands f).1 _).bind fun _ => (noAlloc_freeLocalBlock _).bind fun _ => (noAlloc_freeLocalBlock _).bind fun _ =>
    (noAlloc_freeEnvs _ _).bind fun _ => noAlloc_dirStackFree _

/-- Freeing a block on the stack is undefined. -/
theorem freeLocalBlock_stack (b : Nat) (vs : List (Option (List Char))) (R : HProp) (h : Heap) (xs : List Nat)
    (hh : (localsAt b true vs ⋆ R) h) : (freeLocalBlock b).exec h xs = .ub := by
  unfold localsAt at hh
  rw [star_ex] at hh
  obtain ⟨l, hh⟩ := hh
  rw [star_assoc] at hh
  obtain ⟨hl, hh⟩ := fact_star.1 hh
  have e1 : h b = some (.ptrs true l) := by rw [star_assoc] at hh; exact pts_at hh
  have e2 : freeLocalBlock b = HM.read b (fun o => (match o with | .ptrs _ l => pure l | _ => hub : HM (List (Option Nat))).bind fun l =>
    (freeSlots (l.drop 33)) >>= fun _ => hfree b) := rfl
  rw [e2]
  simp only [HM.exec, e1, HM.bind]
  show (freeSlots (l.drop 33) >>= fun _ => hfree b).exec h xs = .ub
  rw [exec_bind]
  have hsplit : (textsAt (l.drop 33) (vs.drop 33) ⋆ (pts b (.ptrs true l) ⋆ R)) h := by
    have : ∀ A B C : HProp, (A ⋆ B) ⋆ C = B ⋆ A ⋆ C := by intros; ac_rfl
    rw [this] at hh
    refine star_mono (fun g ht => ?_) (fun _ x => x) h hh
    have hlen := textsAt_length ht
    have e : textsAt l vs = textsAt (l.take 33 ++ l.drop 33) (vs.take 33 ++ vs.drop 33) := by
      rw [List.take_append_drop, List.take_append_drop]
    rw [e, textsAt_append _ _ _ _ (by simp [hlen]), hl.2] at ht
    obtain ⟨h1, h2, ha, rfl, ht, hd⟩ := ht
    rw [textsAt_nones ht, textsAt_none] at ht
    have : (hemp ⋆ textsAt (l.drop 33) (vs.drop 33)) (both h1 h2) := ⟨h1, h2, ha, rfl, ht, hd⟩
    rwa [emp_star] at this
  have hr := works_exec h xs (((freeSlots_triple (l.drop 33) (vs.drop 33)).frame _) h hsplit)
  have hs := (noAlloc_freeSlots (l.drop 33)).exec h xs
  cases hx : (freeSlots (l.drop 33)).exec h xs with
  | ok a h' xs' =>
    rw [hx] at hr
    have hr : (hemp ⋆ (pts b (.ptrs true l) ⋆ R)) h' := hr
    rw [emp_star] at hr
    simp only [hfree, HM.exec, pts_at hr]
  | ub => rfl
  | hang => rw [hx] at hr; exact hr.elim
  | stuck => exact absurd hx hs

theorem callEnter_triple (st : Bool) (i : Inst) (v : IView) : Triple (instAt st i v) (callEnter i) fun i' =>
    (instAt true i' { v with locals := List.replicate 128 none, args := List.replicate 128 none } ⋆
      localsAt i.locals st v.locals ⋆ localsAt i.args st v.args) := by
  have blk : ∀ b, pts b (.ptrs true (List.replicate 128 none)) = localsAt b true (List.replicate 128 none) := by
    intro b
    funext h
    refine propext ⟨fun hh => ⟨List.replicate 128 none, fact_star.2 ⟨⟨by simp, by simp⟩, ?_⟩⟩, ?_⟩
    · rw [textsAt_none, star_emp]; exact hh
    · rintro ⟨l, hh⟩
      obtain ⟨hl, h1, h2, ha, rfl, hp, ht⟩ := fact_star.1 hh
      have := textsAt_nones ht
      subst this
      rw [textsAt_none] at ht
      have : (pts b (.ptrs true (List.replicate 128 none)) ⋆ hemp) (both h1 h2) := ⟨h1, h2, ha, rfl, hp, ht⟩
      rwa [star_emp] at this
  unfold instAt callEnter
  refine Triple.fact fun hset => ?_
  refine Triple.allocK fun l => Triple.allocK fun a => Triple.pure fun h hh => ?_
  simp only
  rw [fact_true_star hset, ← blk, ← blk]
  have : ∀ A B C D E F G H : HProp, A ⋆ B ⋆ C ⋆ D ⋆ E ⋆ F ⋆ G ⋆ H = (C ⋆ B ⋆ A ⋆ F ⋆ G ⋆ H) ⋆ D ⋆ E := by intros; ac_rfl
  rwa [this] at hh

end PBat
