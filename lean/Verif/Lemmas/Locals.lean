import Verif.Spec.Locals
import Verif.Lemmas.Env
/-
Helper lemmas for procedure-local variables.
-/
namespace PBat
open Spec

/-! ### What happens to one name -/

/-- A variable with the values saved by enclosing procedures. -/
structure AVar where
  content : List Char
  inherit : Bool
  prev : List (List Char × Bool)

def aPut (x : Option AVar) (c : List Char) (inh : Bool) : Option AVar :=
  match x with
  | none => some ⟨c, inh, []⟩
  | some v => some ⟨c, v.inherit || inh, v.prev⟩

def aRem (x : Option AVar) : Option AVar :=
  match x with
  | none => none
  | some v => if v.prev = [] then none else some v

def aPush (x : Option AVar) : Option AVar :=
  x.map fun v => ⟨v.content, false, (v.content, v.inherit) :: v.prev⟩

def aPop (x : Option AVar) : Option AVar :=
  match x with
  | none => none
  | some v =>
    match v.prev with
    | [] => if v.inherit then some v else none
    | o :: r => if v.inherit then some ⟨v.content, v.inherit, r⟩ else some ⟨o.1, o.2, r⟩

mutual
def aStep (k : List Char) (x : Option AVar) : PCmd → Option AVar
  | .set n c _ inh =>
    if c = [] then (if fold n.txt = k then aRem x else x)
    else if fold (trim n.txt) = k then aPut x c inh else x
  | .unset n => if fold n.txt = k then aRem x else x
  | .call _ body => if LocalName k then aPop (aRun k (aPush x) body) else aRun k x body
def aRun (k : List Char) (x : Option AVar) : List PCmd → Option AVar
  | [] => x
  | c :: cs => aRun k (aStep k x c) cs
end

/-- Shape of an unmarked variable above the saved values `ps`. -/
def Unm (ps : List (List Char × Bool)) (x : Option AVar) : Prop :=
  (∃ c, x = some ⟨c, false, ps⟩) ∨ (ps = [] ∧ x = none)

theorem Unm.rem {ps x} (h : Unm ps x) : Unm ps (aRem x) := by
  rcases h with ⟨c, rfl⟩ | ⟨h, rfl⟩
  · unfold aRem
    by_cases hp : ps = []
    · simp [hp, Unm]
    · simp only [hp, if_false]; exact .inl ⟨c, rfl⟩
  · exact .inr ⟨h, rfl⟩

theorem Unm.put {ps x c} (h : Unm ps x) : Unm ps (aPut x c false) := by
  rcases h with ⟨c', rfl⟩ | ⟨h, rfl⟩
  · exact .inl ⟨c, by simp [aPut]⟩
  · exact .inl ⟨c, by simp [aPut, h]⟩

mutual
theorem unm_step (k : List Char) (c : PCmd) (hk : LocalName k) (hm : ¬ Marks k c) (ps x) (h : Unm ps x) :
    Unm ps (aStep k x c) := by
  match c with
  | .set n c a inh =>
    simp only [aStep]
    split
    · split
      · exact h.rem
      · exact h
    · rename_i hc
      split
      · rename_i hf
        have : inh = false := by
          cases inh
          · rfl
          · exact (hm (by unfold Marks; exact ⟨hc, rfl, hf⟩)).elim
        subst this
        exact h.put
      · exact h
  | .unset n =>
    simp only [aStep]
    split
    · exact h.rem
    · exact h
  | .call a body =>
    simp only [aStep, if_pos hk]
    have hm' : ¬ MarksAny k body := by simpa only [Marks] using hm
    rcases h with ⟨c, rfl⟩ | ⟨h, rfl⟩
    · have := unm_run k body hk hm' ((c, false) :: ps) (aPush (some ⟨c, false, ps⟩)) (.inl ⟨c, rfl⟩)
      rcases this with ⟨c', h'⟩ | ⟨h', -⟩
      · rw [h']; exact .inl ⟨c, rfl⟩
      · cases h'
    · have := unm_run k body hk hm' [] (aPush none) (.inr ⟨rfl, rfl⟩)
      rcases this with ⟨c', h'⟩ | ⟨-, h'⟩
      · rw [h']; exact .inr ⟨h, rfl⟩
      · rw [h']; exact .inr ⟨h, rfl⟩
theorem unm_run (k : List Char) (cs : List PCmd) (hk : LocalName k) (hm : ¬ MarksAny k cs) (ps x) (h : Unm ps x) :
    Unm ps (aRun k x cs) := by
  match cs with
  | [] => exact h
  | c :: cs =>
    simp only [MarksAny, not_or] at hm
    simp only [aRun]
    exact unm_run k cs hk hm.2 ps _ (unm_step k c hk hm.1 ps x h)
end

/-- A call that never marks the local name `k` leaves it as it was. -/
theorem call_unmarked (k : List Char) (body : List PCmd) (hk : LocalName k) (hm : ¬ MarksAny k body)
    (x : Option AVar) : aPop (aRun k (aPush x) body) = x := by
  cases x with
  | none =>
    rcases unm_run k body hk hm [] (aPush none) (.inr ⟨rfl, rfl⟩) with ⟨c, h⟩ | ⟨-, h⟩ <;> rw [h] <;> rfl
  | some v =>
    rcases unm_run k body hk hm ((v.content, v.inherit) :: v.prev) (aPush (some v)) (.inl ⟨v.content, rfl⟩) with
      ⟨c, h⟩ | ⟨h, -⟩
    · rw [h]; rfl
    · cases h

/-- A marked variable. -/
def Mkd (x : Option AVar) : Prop := ∃ v, x = some v ∧ v.inherit = true

mutual
theorem mkd_keep (k : List Char) (c : PCmd) (hr : ¬ Removes k c) (x) (h : Mkd x) : Mkd (aStep k x c) := by
  match c with
  | .set n c a inh =>
    simp only [aStep]
    simp only [Removes, not_and] at hr
    split
    · rename_i hc
      rw [if_neg (hr hc)]; exact h
    · split
      · obtain ⟨v, rfl, hv⟩ := h; exact ⟨_, rfl, by simp [hv]⟩
      · exact h
  | .unset n =>
    simp only [aStep]
    simp only [Removes] at hr
    rw [if_neg hr]; exact h
  | .call a body =>
    simp only [Removes] at hr
    simp only [aStep]
    split
    · rename_i hk
      by_cases hm : MarksAny k body
      · obtain ⟨v, hv, hi⟩ := mkd_mark k body hm hr (aPush x)
        rw [hv]
        unfold aPop
        simp only [hi, if_true]
        split
        · exact ⟨_, rfl, hi⟩
        · exact ⟨_, rfl, rfl⟩
      · rw [call_unmarked k body hk hm]; exact h
    · exact mkd_keeps k body hr x h
theorem mkd_keeps (k : List Char) (cs : List PCmd) (hr : ¬ RemovesAny k cs) (x) (h : Mkd x) : Mkd (aRun k x cs) := by
  match cs with
  | [] => exact h
  | c :: cs =>
    simp only [RemovesAny, not_or] at hr
    simp only [aRun]
    exact mkd_keeps k cs hr.2 _ (mkd_keep k c hr.1 x h)
theorem mkd_mark1 (k : List Char) (c : PCmd) (hm : Marks k c) (hr : ¬ Removes k c) (x) : Mkd (aStep k x c) := by
  match c with
  | .set n c a inh =>
    simp only [Marks] at hm
    simp only [aStep, if_neg hm.1, if_pos hm.2.2, hm.2.1]
    cases x with
    | none => exact ⟨_, rfl, rfl⟩
    | some v => exact ⟨_, rfl, by simp⟩
  | .unset n => exact absurd hm (by simp only [Marks]; exact fun h => h)
  | .call a body =>
    simp only [Removes] at hr
    simp only [Marks] at hm
    simp only [aStep]
    split
    · obtain ⟨v, hv, hi⟩ := mkd_mark k body hm hr (aPush x)
      rw [hv]
      unfold aPop
      simp only [hi, if_true]
      split
      · exact ⟨_, rfl, hi⟩
      · exact ⟨_, rfl, rfl⟩
    · exact mkd_mark k body hm hr x
theorem mkd_mark (k : List Char) (cs : List PCmd) (hm : MarksAny k cs) (hr : ¬ RemovesAny k cs) (x) :
    Mkd (aRun k x cs) := by
  match cs with
  | [] => exact absurd hm (by simp only [MarksAny]; exact fun h => h)
  | c :: cs =>
    simp only [RemovesAny, not_or] at hr
    simp only [aRun]
    by_cases h : Marks k c
    · exact mkd_keeps k cs hr.2 _ (mkd_mark1 k c h hr.1 x)
    · simp only [MarksAny, h, false_or] at hm
      exact mkd_mark k cs hm hr.2 _
end

theorem call_marked (k : List Char) (body : List PCmd) (hm : MarksAny k body) (hr : ¬ RemovesAny k body)
    (x : Option AVar) : (aPop (aRun k (aPush x) body)).map AVar.content = (aRun k (aPush x) body).map AVar.content := by
  obtain ⟨v, hv, hi⟩ := mkd_mark k body hm hr (aPush x)
  rw [hv]
  unfold aPop
  simp only [hi, if_true]
  split <;> rfl

/-! ### The table -/

/-- The saved values of a slot. -/
def avar (v : Var) : AVar := ⟨v.content, v.inherit, v.prev.map fun o => (o.content, o.inherit)⟩

/-- Well-formed slot. -/
def Slot (marked : List Char → Prop) (v : Var) : Prop :=
  match v.name with
  | none => v.inherit = false ∧ v.prev = []
  | some n => NiceName n.txt ∧ 0 < n.addr ∧ (v.inherit = true → marked (fold n.txt)) ∧
      ∀ o ∈ v.prev, (∃ m, o.name = some m ∧ m.txt = n.txt ∧ 0 < m.addr) ∧ (o.inherit = true → marked (fold n.txt))

/-- Order-independent facts. -/
structure LCore (marked : List Char → Prop) (l : List Var) (A : List Char → Option AVar) : Prop where
  slot : ∀ v ∈ l, Slot marked v
  uniq : l.Pairwise Differ
  map : ∀ k a, A k = some a ↔ ∃ v ∈ l, ∃ n, v.name = some n ∧ fold n.txt = k ∧ avar v = a

structure LRep (marked : List Char → Prop) (e : EnvBuf) (A : List Char → Option AVar) : Prop where
  core : LCore marked e.vars A
  sorted : e.vars.Pairwise (envCompName · · ≤ 0)
  fits : e.vars.length ≤ e.nb

theorem Slot.side {marked v} (h : Slot marked v) : Side true v := by
  intro n hn
  unfold Slot at h
  rw [hn] at h
  exact h.2.1

theorem LCore.perm {marked l l' A} (h : LCore marked l A) (hp : l'.Perm l) : LCore marked l' A where
  slot := fun v hv => h.slot v (hp.mem_iff.1 hv)
  uniq := (List.Perm.pairwise_iff (fun h => Differ.symm h) hp).2 h.uniq
  map := fun k c => by
    rw [h.map]
    constructor <;> rintro ⟨v, hv, h⟩
    · exact ⟨v, hp.mem_iff.2 hv, h⟩
    · exact ⟨v, hp.mem_iff.1 hv, h⟩

theorem LCore.consistent {marked l A} (h : LCore marked l A) : Consistent envCompName l :=
  consistent_of_signLex fun _ ha _ hb => compName_sign (h.slot _ ha).side (h.slot _ hb).side

theorem LRep.ordered {marked e A} (h : LRep marked e A) {k : Var} (hk : Side true k) :
    OrderedFor envCompName k e.vars :=
  orderedFor_of_signLex (fun _ ha _ hb => compName_sign (h.core.slot _ ha).side (h.core.slot _ hb).side)
    (fun _ ha => compName_sign hk (h.core.slot _ ha).side) h.sorted

theorem LRep.sort {L : LibC} {marked l A nb} (h : LCore marked l A)
    (hn : l.length ≤ nb) : LRep marked { nb := nb, vars := L.qsort envCompName l } A where
  core := h.perm (L.qsort_perm _ _ h.consistent)
  sorted := L.qsort_sorted _ _ h.consistent
  fits := by
    simpa [(L.qsort_perm _ _ h.consistent).length_eq] using hn

theorem lsearch_name {L : LibC} {marked e A} (h : LRep marked e A) {n : CPtr} (hn : 0 < n.addr) :
    (∃ i v m, L.bsearch envCompName (keyVar (some n)) e.vars = some i ∧ e.vars[i]? = some v ∧
      v.name = some m ∧ fold m.txt = fold n.txt ∧ A (fold n.txt) = some (avar v)) ∨
    (L.bsearch envCompName (keyVar (some n)) e.vars = none ∧ A (fold n.txt) = none ∧
      ∀ v ∈ e.vars, ∀ m, v.name = some m → fold m.txt ≠ fold n.txt) := by
  have hs : SameSide true n.addr := hn
  have ho := h.ordered (side_key hs)
  cases hb : L.bsearch envCompName (keyVar (some n)) e.vars with
  | some i =>
    left
    obtain ⟨v, hv, hc⟩ := L.bsearch_some _ _ _ _ ho hb
    have hmem := List.mem_of_getElem? hv
    obtain ⟨m, hm, hf⟩ := enc_key_eq.1 ((compName_sign (side_key hs) (h.core.slot v hmem).side).2.1 hc)
    exact ⟨i, v, m, rfl, hv, hm, hf, (h.core.map _ _).2 ⟨v, hmem, m, hm, hf, rfl⟩⟩
  | none =>
    right
    have hne : ∀ v ∈ e.vars, ∀ m, v.name = some m → fold m.txt ≠ fold n.txt := by
      intro v hv m hm hf
      exact L.bsearch_none _ _ _ ho hb v hv
        ((compName_sign (side_key hs) (h.core.slot v hv).side).2.2 (enc_key_eq.2 ⟨m, hm, hf⟩))
    refine ⟨rfl, ?_, hne⟩
    cases hM : A (fold n.txt) with
    | none => rfl
    | some c =>
      obtain ⟨v, hv, m, hm, hf, -⟩ := (h.core.map _ _).1 hM
      exact absurd hf (hne v hv m hm)

theorem lsearch_dead {L : LibC} {marked e A} (h : LRep marked e A) :
    (∃ i v, L.bsearch envCompName (keyVar none) e.vars = some i ∧ e.vars[i]? = some v ∧ v.name = none) ∨
    L.bsearch envCompName (keyVar none) e.vars = none := by
  have ho := h.ordered (side_dead (pos := true))
  cases hs : L.bsearch envCompName (keyVar none) e.vars with
  | some i =>
    left
    obtain ⟨v, hv, hc⟩ := L.bsearch_some _ _ _ _ ho hs
    have hmem := List.mem_of_getElem? hv
    exact ⟨i, v, rfl, hv, enc_dead_eq.1 ((compName_sign side_dead (h.core.slot v hmem).side).2.1 hc)⟩
  | none => right; rfl

theorem getEnv_lspec {L : LibC} {marked e A} (h : LRep marked e A) {n : CPtr} (hn : 0 < n.addr) :
    getEnv L e n = (A (fold n.txt)).map AVar.content := by
  unfold getEnv
  rcases lsearch_name (L := L) h hn with ⟨i, v, m, h1, h2, h3, h4, h5⟩ | ⟨h1, h2, -⟩
  · rw [h1]; simp only [h2, h3, h5, Option.bind_some, Option.map_some, avar]
  · rw [h1, h2]; rfl

theorem LCore.others {marked v rest A} (h : LCore marked (v :: rest) A) :
    ∀ k a, (∃ w ∈ rest, ∃ n, w.name = some n ∧ fold n.txt = k ∧ avar w = a) ↔
      A k = some a ∧ ∀ m, v.name = some m → fold m.txt ≠ k := by
  intro k c
  have hu := List.pairwise_cons.1 h.uniq
  constructor
  · rintro ⟨w, hw, n, hn, hf, hc⟩
    refine ⟨(h.map k c).2 ⟨w, by simp [hw], n, hn, hf, hc⟩, ?_⟩
    intro m hm hmk
    exact hu.1 w hw m n hm hn (hmk.trans hf.symm)
  · rintro ⟨hM, hne⟩
    obtain ⟨w, hw, n, hn, hf, hc⟩ := (h.map k c).1 hM
    rcases List.mem_cons.1 hw with rfl | hw
    · exact absurd hf (hne n hn)
    · exact ⟨w, hw, n, hn, hf, hc⟩

theorem LCore.replace {marked v v' rest A A'} (h : LCore marked (v :: rest) A)
    (hs : Slot marked v') (hd : ∀ w ∈ rest, Differ v' w)
    (hM : ∀ k a, A' k = some a ↔
      (∃ n, v'.name = some n ∧ fold n.txt = k ∧ avar v' = a) ∨
      (A k = some a ∧ ∀ m, v.name = some m → fold m.txt ≠ k)) : LCore marked (v' :: rest) A' where
  slot := fun w hw => by
    rcases List.mem_cons.1 hw with rfl | hw
    · exact hs
    · exact h.slot w (by simp [hw])
  uniq := List.pairwise_cons.2 ⟨hd, (List.pairwise_cons.1 h.uniq).2⟩
  map := fun k c => by
    rw [hM, ← h.others]
    constructor
    · rintro (⟨n, h1, h2, h3⟩ | ⟨w, hw, n, hn⟩)
      · exact ⟨v', by simp, n, h1, h2, h3⟩
      · exact ⟨w, by simp [hw], n, hn⟩
    · rintro ⟨w, hw, n, hn⟩
      rcases List.mem_cons.1 hw with rfl | hw
      · exact .inl ⟨n, hn⟩
      · exact .inr ⟨w, hw, n, hn⟩

theorem unSetEnv_lspec {L : LibC} {marked e A} (h : LRep marked e A) {n : CPtr} (hn : 0 < n.addr)
    (hm : ¬ marked (fold n.txt)) :
    LRep marked (unSetEnv L e n) (fun k => if fold n.txt = k then aRem (A k) else A k) := by
  unfold unSetEnv
  rcases lsearch_name (L := L) h hn with ⟨i, v, m, h1, h2, h3, h4, h5⟩ | ⟨h1, h2, -⟩
  · rw [h1]
    simp only [h2]
    have hav : (avar v).prev = [] ↔ v.prev = [] := by simp [avar]
    split
    · rename_i hp
      obtain ⟨rest, hperm, hp'⟩ := set_perm h2
      have hc := h.core.perm hperm.symm
      refine LRep.sort ?_ (by simpa using h.fits)
      refine LCore.perm ?_ (hp' _)
      refine hc.replace ?_ ?_ ?_
      · have hs := hc.slot v (by simp)
        unfold Slot at hs ⊢
        rw [h3] at hs
        simp only
        refine ⟨?_, hp⟩
        cases hi : v.inherit
        · rfl
        · have := hs.2.2.1 hi; rw [h4] at this; exact absurd this hm
      · intro w _ x y hx; simp at hx
      · intro k c
        simp only [h3]
        by_cases hk : fold n.txt = k
        · subst hk
          rw [if_pos rfl, h5]
          simp [aRem, hav.2 hp, h4]
        · rw [if_neg hk]
          constructor
          · intro hM; exact .inr ⟨hM, fun m' hm' => by cases hm'; rw [h4]; exact hk⟩
          · rintro (⟨n, h1, -⟩ | ⟨hM, -⟩)
            · simp at h1
            · exact hM
    · rename_i hp
      have : (fun k => if fold n.txt = k then aRem (A k) else A k) = A := by
        funext k; split
        · rename_i hk; subst hk; rw [h5]; simp [aRem, hav, hp]
        · rfl
      rw [this]; exact h
  · rw [h1]
    have : (fun k => if fold n.txt = k then aRem (A k) else A k) = A := by
      funext k; split
      · rename_i hk; subst hk; rw [h2]; rfl
      · rfl
    rw [this]; exact h

theorem setEnvEx_lspec {L : LibC} {marked e A} (h : LRep marked e A) {n : CPtr} {c : List Char} {cpy : Int}
    {inh : Bool} (hn : 0 < n.addr) (hcpy : 0 < cpy) (hnice : NiceName (trim n.txt))
    (hmark : inh = true → c ≠ [] → marked (fold (trim n.txt))) (hrem : c = [] → ¬ marked (fold n.txt)) :
    ∃ e', setEnvEx L e n c cpy inh = some e' ∧
      LRep marked e' (fun k => aStep k (A k) (.set n c cpy inh)) := by
  unfold setEnvEx
  split
  · rename_i hc
    refine ⟨_, rfl, ?_⟩
    simp only [aStep, if_pos hc]
    exact unSetEnv_lspec h hn (hrem hc)
  · rename_i hc0
    simp only [aStep, if_neg hc0]
    have hnm : 0 < (CPtr.mk cpy (adjustVarName n.txt)).addr := hcpy
    rcases lsearch_name (L := L) h hnm with ⟨i, v, m, h1, h2, h3, h4, h5⟩ | ⟨h1, h2, hne⟩
    · rw [h1]
      simp only [h2, Option.map_some]
      simp only [adjustVarName_eq] at h4 h5
      refine ⟨_, rfl, ?_, ?_, ?_⟩
      · obtain ⟨rest, hp, hp'⟩ := set_perm h2
        have hc := h.core.perm hp.symm
        refine LCore.perm ?_ (hp' _)
        refine hc.replace ?_ ?_ ?_
        · have hs := hc.slot v (by simp)
          unfold Slot at hs ⊢
          rw [h3] at hs
          simp only [h3]
          refine ⟨hs.1, hs.2.1, ?_, hs.2.2.2⟩
          simp only [Bool.or_eq_true]
          rintro (hi | hi)
          · exact hs.2.2.1 hi
          · rw [h4]; exact hmark hi hc0
        · exact (List.pairwise_cons.1 hc.uniq).1
        · intro k c'
          simp only [h3]
          by_cases hk : fold (trim n.txt) = k
          · subst hk; rw [if_pos rfl, h5]; simp [aPut, avar, h4]
          · rw [if_neg hk]
            constructor
            · intro hM; exact .inr ⟨hM, fun m' hm' => by cases hm'; rw [h4]; exact hk⟩
            · rintro (⟨x, hx, hxk, -⟩ | ⟨hM, -⟩)
              · cases hx; rw [h4] at hxk; exact absurd hxk hk
              · exact hM
      · simp only [List.pairwise_iff_getElem, List.length_set]
        intro a b ha hb hab
        have := List.pairwise_iff_getElem.1 h.sorted a b ha hb hab
        obtain ⟨hi, hv⟩ := List.getElem?_eq_some_iff.1 h2
        refine Int.le_trans (Int.le_of_eq (envCompName_congr ?_ ?_)) this <;>
          · simp only [List.getElem_set]
            split
            · subst_vars; rfl
            · rfl
      · simpa using h.fits
    · rw [h1]
      simp only
      simp only [adjustVarName_eq] at h2 hne ⊢
      have hput : ∀ k c', (if fold (trim n.txt) = k then aPut (A k) c inh else A k) = some c' ↔
          (fold (trim n.txt) = k ∧ ⟨c, inh, []⟩ = c') ∨ A k = some c' := by
        intro k c'
        by_cases hk : fold (trim n.txt) = k
        · subst hk; simp [h2, aPut]
        · rw [if_neg hk]; simp [hk]
      rcases lsearch_dead (L := L) h with ⟨i, v, h3, h4, h5⟩ | h3
      · rw [h3]
        simp only [h4, Option.map_some]
        refine ⟨_, rfl, ?_⟩
        obtain ⟨rest, hp, hp'⟩ := set_perm h4
        have hc := h.core.perm hp.symm
        have hdead := hc.slot v (by simp)
        unfold Slot at hdead
        rw [h5] at hdead
        refine LRep.sort ?_ (by simpa using h.fits)
        refine LCore.perm ?_ (hp' _)
        refine hc.replace ?_ ?_ ?_
        · unfold Slot
          simp only [hdead.1, Bool.false_or]
          exact ⟨hnice, hcpy, fun hi => hmark hi hc0, by simp⟩
        · intro w hw x y hx hy
          cases hx
          exact fun h => hne w (hp.mem_iff.2 (by simp [hw])) y hy h.symm
        · intro k c'
          rw [hput]
          simp [h5, avar, hdead.1]
      · rw [h3]
        simp only
        have hlt : e.vars.length < (if e.vars.length = e.nb then roundNb (e.nb + 1) else e.nb) := by
          have := h.fits
          split
          · unfold roundNb; omega
          · omega
        rw [if_pos hlt]
        refine ⟨_, rfl, LRep.sort ?_ (by simp only [List.length_append, List.length_singleton]; exact hlt)⟩
        refine LCore.perm ?_ List.perm_append_comm
        refine ⟨?_, ?_, ?_⟩
        · intro w hw
          simp only [List.singleton_append, List.mem_cons] at hw
          rcases hw with rfl | hw
          · exact ⟨hnice, hcpy, fun hi => hmark hi hc0, by simp⟩
          · exact h.core.slot w hw
        · refine List.pairwise_cons.2 ⟨?_, h.core.uniq⟩
          intro w hw x y hx hy
          cases hx
          exact fun h => hne w hw y hy h.symm
        · intro k c'
          rw [hput, h.core.map]
          constructor
          · rintro (⟨h1, h2⟩ | ⟨w, hw, h⟩)
            · exact ⟨_, by simp; left; rfl, _, rfl, h1, by simpa [avar] using h2⟩
            · exact ⟨w, by simp [hw], h⟩
          · rintro ⟨w, hw, x, hx, hk, hc⟩
            simp only [List.singleton_append, List.mem_cons] at hw
            rcases hw with rfl | hw
            · cases hx; exact .inl ⟨hk, by simpa [avar] using hc⟩
            · exact .inr ⟨w, hw, x, hx, hk, hc⟩

/-! ### Locating the local names -/

theorem toLower_toNat (c : Char) :
    c.toLower.toNat = if 65 ≤ c.toNat ∧ c.toNat ≤ 90 then c.toNat + 32 else c.toNat := by
  split
  · rename_i h
    have key : ∀ n, n < 91 → 65 ≤ n → (Char.ofNat n).toLower.toNat = n + 32 := by decide
    have := key c.toNat (by omega) h.1
    rwa [Char.ofNat_toNat] at this
  · rename_i h
    unfold Char.toLower
    rw [dif_neg]
    rintro ⟨h1, h2⟩
    exact h ⟨UInt32.le_iff_toNat_le.1 h1, UInt32.le_iff_toNat_le.1 h2⟩

theorem toLower_underscore (c : Char) : c.toLower = '_' ↔ c = '_' := by
  constructor
  · intro h
    have h1 := congrArg Char.toNat h
    rw [toLower_toNat] at h1
    have h2 : '_'.toNat = 95 := by decide
    rw [h2] at h1
    apply toNat_inj
    rw [h2]
    split at h1 <;> omega
  · rintro rfl; decide

theorem localName_fold (n : List Char) : LocalName (fold n) ↔ n.head? = some '_' := by
  unfold LocalName fold
  cases n with
  | nil => simp
  | cons c n => simp [toLower_underscore]

theorem isLocal_true {v : Var} : isLocal v = true ↔ ∃ n, v.name = some n ∧ n.txt.head? = some '_' := by
  unfold isLocal
  cases v.name with
  | none => simp
  | some n => simp

/-- Everything sorted before a local name is local. -/
theorem local_first {marked a b} (ha : Slot marked a) (hb : Slot marked b) (hab : envCompName a b ≤ 0)
    (hl : isLocal b = true) : isLocal a = true := by
  obtain ⟨m, hm, hmh⟩ := isLocal_true.1 hl
  rw [(compName_sign ha.side hb.side).le] at hab
  unfold Slot at ha
  unfold enc at hab
  rw [hm] at hab
  cases hn : a.name with
  | none => rw [hn] at hab; simp [lexCmp] at hab
  | some n =>
    rw [hn] at hab ha
    refine isLocal_true.2 ⟨n, hn, ?_⟩
    rcases ha.1 with h | ⟨c, hc, h1, h2⟩
    · exact h
    · exfalso
      cases hnt : n.txt with
      | nil => rw [hnt] at hc; simp at hc
      | cons x xs =>
        rw [hnt] at hc; simp at hc; subst hc
        cases hmt : m.txt with
        | nil => rw [hmt] at hmh; simp at hmh
        | cons y ys =>
          rw [hmt] at hmh; simp at hmh; subst hmh
          simp only [hnt, hmt] at hab
          have hl : x.toLower.toNat = x.toNat + 32 := by
            rw [toLower_toNat, if_pos ⟨h1, h2⟩]
          simp only [codes, List.map_cons, lexCmp, hl] at hab
          have h1' : 65 ≤ x.toNat := h1
          have : ('_'.toLower).toNat = 95 := by decide
          rw [this] at hab
          simp only [Nat.lt_irrefl, if_false] at hab
          rw [if_neg (by omega), if_pos (by omega)] at hab
          omega

theorem localCmp {marked v} (h : Slot marked v) :
    envCompLocal localKey v ≤ 0 ∧ (envCompLocal localKey v = 0 ↔ isLocal v = true) := by
  unfold envCompLocal isLocal
  unfold Slot at h
  have h95 : ('_'.toNat : Int) = 95 := by decide
  cases hn : v.name with
  | none => simp
  | some n =>
    rw [hn] at h
    simp only
    rcases h.1 with h | ⟨c, hc, h1, h2⟩
    · cases hnt : n.txt with
      | nil => rw [hnt] at h; simp at h
      | cons x xs => rw [hnt] at h; simp at h; subst h; simp
    · cases hnt : n.txt with
      | nil => rw [hnt] at hc; simp at hc
      | cons x xs =>
        rw [hnt] at hc; simp at hc; subst hc
        have h2' : x.toNat ≤ 90 := h2
        simp only [h95, List.head?_cons, beq_iff_eq, Option.some.injEq]
        refine ⟨by omega, ?_⟩
        constructor
        · intro h; omega
        · rintro rfl; exact absurd h2' (by decide)

theorem LRep.orderedLocal {marked e A} (h : LRep marked e A) : OrderedFor envCompLocal localKey e.vars := by
  unfold OrderedFor
  refine h.sorted.imp_of_mem ?_
  intro a b ha hb hab
  have h1 := localCmp (h.core.slot a ha)
  have h2 := localCmp (h.core.slot b hb)
  refine ⟨fun _ => h2.1, fun hlt => ?_⟩
  have : ¬ isLocal a = true := fun h => by have := h1.2.2 h; omega
  have : ¬ isLocal b = true := fun hl => this (local_first (h.core.slot a ha) (h.core.slot b hb) hab hl)
  have : envCompLocal localKey b ≠ 0 := fun h => this (h2.2.1 h)
  omega

theorem walk_all (f : Var → Var) (l : List Var) (h : ∀ v ∈ l, isLocal v = true) :
    walk f l = l.map fun v => if isLocal v then f v else v := by
  induction l with
  | nil => rfl
  | cons v l ih =>
    simp only [walk, h v (by simp), if_true, List.map_cons, ih fun x hx => h x (by simp [hx])]

theorem map_noLocal (f : Var → Var) (l : List Var) (h : ∀ v ∈ l, ¬ isLocal v = true) :
    (l.map fun v => if isLocal v then f v else v) = l := by
  conv => rhs; rw [← List.map_id l]
  refine List.map_congr_left fun v hv => ?_
  rw [if_neg (h v hv)]; rfl

theorem walk_prefix (f : Var → Var) (l : List Var)
    (h : l.Pairwise fun a b => isLocal b = true → isLocal a = true) :
    walk f l = l.map fun v => if isLocal v then f v else v := by
  induction l with
  | nil => rfl
  | cons v l ih =>
    have hp := List.pairwise_cons.1 h
    simp only [walk]
    split
    · rename_i hv
      simp only [List.map_cons, hv, if_true, ih hp.2]
    · rename_i hv
      rw [List.map_cons, if_neg hv, map_noLocal]
      intro w hw hl
      exact hv (hp.1 w hw hl)

theorem LRep.localPrefix {marked e A} (h : LRep marked e A) :
    e.vars.Pairwise fun a b => isLocal b = true → isLocal a = true :=
  h.sorted.imp_of_mem fun ha hb hab hl => local_first (h.core.slot _ ha) (h.core.slot _ hb) hab hl

theorem LRep.takeLocal {marked e A} (h : LRep marked e A) {i : Nat} {v : Var} (hv : e.vars[i]? = some v)
    (hl : isLocal v = true) : ∀ w ∈ e.vars.take (i + 1), isLocal w = true := by
  intro w hw
  obtain ⟨j, hj, rfl⟩ := List.getElem_of_mem hw
  obtain ⟨hi, hvi⟩ := List.getElem?_eq_some_iff.1 hv
  simp only [List.length_take] at hj
  rw [List.getElem_take]
  rcases Nat.lt_or_ge j i with hji | hji
  · exact List.pairwise_iff_getElem.1 h.localPrefix j i (by omega) hi hji (by rw [hvi]; exact hl)
  · have : j = i := by omega
    subst this
    rw [hvi]; exact hl

theorem walkFrom_eq (f : Var → Var) {marked e A} (h : LRep marked e A) {i : Nat} {v : Var}
    (hv : e.vars[i]? = some v) (hl : isLocal v = true) :
    walkFrom f e.vars i = e.vars.map fun v => if isLocal v then f v else v := by
  unfold walkFrom
  rw [walk_all, walk_prefix, ← List.map_reverse, List.reverse_reverse, ← List.map_append, List.take_append_drop]
  · exact h.localPrefix.sublist (List.drop_sublist _ _)
  · intro w hw
    exact h.takeLocal hv hl w (List.mem_reverse.1 hw)

/-- The result of a whole-table walk. -/
theorem walkLocal {L : LibC} {marked e A} (h : LRep marked e A) (f : Var → Var) :
    (L.bsearch envCompLocal localKey e.vars = none ∧
      e.vars = e.vars.map fun v => if isLocal v then f v else v) ∨
    (∃ i v, L.bsearch envCompLocal localKey e.vars = some i ∧ e.vars[i]? = some v ∧ isLocal v = true ∧
      walkFrom f e.vars i = e.vars.map fun v => if isLocal v then f v else v) := by
  have ho := h.orderedLocal
  cases hb : L.bsearch envCompLocal localKey e.vars with
  | none =>
    left
    refine ⟨rfl, (map_noLocal f _ ?_).symm⟩
    intro v hv hl
    exact L.bsearch_none _ _ _ ho hb v hv ((localCmp (h.core.slot v hv)).2.2 hl)
  | some i =>
    right
    obtain ⟨v, hv, hc⟩ := L.bsearch_some _ _ _ _ ho hb
    have hl := (localCmp (h.core.slot v (List.mem_of_getElem? hv))).2.1 hc
    exact ⟨i, v, rfl, hv, hl, walkFrom_eq f h hv hl⟩

theorem LCore.mapF {marked l A} (h : LCore marked l A) (F : Var → Var)
    (absF : List Char → Option AVar → Option AVar)
    (h0 : ∀ k, absF k none = none)
    (hdead : ∀ v ∈ l, v.name = none → F v = v)
    (hslot : ∀ v ∈ l, Slot marked (F v))
    (hlive : ∀ v ∈ l, ∀ n, v.name = some n →
      (absF (fold n.txt) (some (avar v)) = none ∧ (F v).name = none) ∨
      (∃ m, (F v).name = some m ∧ m.txt = n.txt ∧ absF (fold n.txt) (some (avar v)) = some (avar (F v)))) :
    LCore marked (l.map F) (fun k => absF k (A k)) where
  slot := fun v hv => by
    obtain ⟨w, hw, rfl⟩ := List.mem_map.1 hv
    exact hslot w hw
  uniq := by
    rw [List.pairwise_map]
    refine h.uniq.imp_of_mem ?_
    intro a b ha hb hd x y hx hy
    have key : ∀ v ∈ l, ∀ z, (F v).name = some z → ∃ n, v.name = some n ∧ n.txt = z.txt := by
      intro v hv z hz
      cases hn : v.name with
      | none => rw [hdead v hv hn, hn] at hz; cases hz
      | some n =>
        rcases hlive v hv n hn with ⟨-, h⟩ | ⟨m, hm, ht, -⟩
        · rw [h] at hz; cases hz
        · rw [hm] at hz; cases hz; exact ⟨n, rfl, ht.symm⟩
    obtain ⟨n1, hn1, ht1⟩ := key a ha x hx
    obtain ⟨n2, hn2, ht2⟩ := key b hb y hy
    rw [← ht1, ← ht2]
    exact hd n1 n2 hn1 hn2
  map := fun k a => by
    constructor
    · intro hk
      cases hA : A k with
      | none => simp only [hA, h0] at hk; cases hk
      | some av =>
        obtain ⟨v, hv, n, hn, hf, rfl⟩ := (h.map k av).1 hA
        subst hf
        rw [hA] at hk
        rcases hlive v hv n hn with ⟨h, -⟩ | ⟨m, hm, ht, ha⟩
        · rw [h] at hk; cases hk
        · rw [ha] at hk
          cases hk
          exact ⟨F v, List.mem_map.2 ⟨v, hv, rfl⟩, m, hm, by rw [ht], rfl⟩
    · rintro ⟨w, hw, m, hm, hf, rfl⟩
      obtain ⟨v, hv, rfl⟩ := List.mem_map.1 hw
      cases hn : v.name with
      | none => rw [hdead v hv hn, hn] at hm; cases hm
      | some n =>
        rcases hlive v hv n hn with ⟨-, h⟩ | ⟨m', hm', ht, ha⟩
        · rw [h] at hm; cases hm
        · rw [hm'] at hm
          cases hm
          have : A k = some (avar v) := (h.map _ _).2 ⟨v, hv, n, hn, by rw [← ht, hf], rfl⟩
          simp only [this]
          rw [← hf, ht]; exact ha

/-- Names keep their text: the order is kept. -/
theorem sorted_mapF {marked} {l : List Var} (F : Var → Var) (hs : ∀ v ∈ l, Slot marked v)
    (hs' : ∀ v ∈ l, Slot marked (F v)) (he : ∀ v ∈ l, enc true (F v) = enc true v)
    (h : l.Pairwise (envCompName · · ≤ 0)) : (l.map F).Pairwise (envCompName · · ≤ 0) := by
  rw [List.pairwise_map]
  refine h.imp_of_mem ?_
  intro a b ha hb hab
  rw [(compName_sign (hs a ha).side (hs b hb).side).le] at hab
  rw [(compName_sign (hs' a ha).side (hs' b hb).side).le, he a ha, he b hb]
  exact hab

theorem pushLocals_lspec {L : LibC} {marked e A} (h : LRep marked e A) {addr : Var → Int}
    (ha : ∀ v, 0 < addr v) :
    LRep marked (pushLocals L e addr) (fun k => if LocalName k then aPush (A k) else A k) := by
  have hres : pushLocals L e addr =
      { e with vars := e.vars.map fun v => if isLocal v then pushVar addr v else v } := by
    unfold pushLocals
    rcases walkLocal (L := L) h (pushVar addr) with ⟨h1, h2⟩ | ⟨i, v, h1, -, -, h2⟩
    · rw [h1]; simp only; rw [← h2]
    · rw [h1]; simp only; rw [h2]
  have hslot : ∀ v ∈ e.vars, Slot marked (if isLocal v then pushVar addr v else v) := by
    intro v hv
    split
    · rename_i hl
      obtain ⟨n, hn, -⟩ := isLocal_true.1 hl
      have hs := h.core.slot v hv
      unfold Slot at hs ⊢
      unfold pushVar
      rw [hn] at hs
      simp only [hn]
      refine ⟨hs.1, ha v, by simp, ?_⟩
      intro o ho
      rcases List.mem_cons.1 ho with rfl | ho
      · exact ⟨⟨n, rfl, rfl, hs.2.1⟩, hs.2.2.1⟩
      · exact hs.2.2.2 o ho
    · exact h.core.slot v hv
  rw [hres]
  refine ⟨?_, ?_, by simpa using h.fits⟩
  · refine h.core.mapF _ (fun k x => if LocalName k then aPush x else x) (fun k => by split <;> rfl) ?_ hslot ?_
    · intro v hv hn
      have : isLocal v = false := by simp [isLocal, hn]
      simp [this]
    · intro v hv n hn
      right
      by_cases hl : n.txt.head? = some '_'
      · have h1 : isLocal v = true := isLocal_true.2 ⟨n, hn, hl⟩
        simp only [h1, if_true, if_pos ((localName_fold n.txt).2 hl)]
        refine ⟨⟨addr v, n.txt⟩, by simp [pushVar, hn], rfl, ?_⟩
        simp [aPush, avar, pushVar, hn]
      · have h1 : ¬ isLocal v = true := fun h => by
          obtain ⟨m, hm, hh⟩ := isLocal_true.1 h
          rw [hn] at hm; cases hm; exact hl hh
        simp only [h1, if_neg (fun h => hl ((localName_fold n.txt).1 h))]
        exact ⟨n, hn, rfl, rfl⟩
  · refine sorted_mapF _ h.core.slot hslot ?_ h.sorted
    intro v hv
    split
    · rename_i hl
      obtain ⟨n, hn, -⟩ := isLocal_true.1 hl
      simp [enc, pushVar, hn]
    · rfl

theorem takeWhile_all (l : List Var) (h : ∀ w ∈ l, isLocal w = true) : l.takeWhile isLocal = l := by
  induction l with
  | nil => rfl
  | cons v l ih => rw [List.takeWhile_cons_of_pos (h v (by simp)), ih fun w hw => h w (by simp [hw])]

theorem popSort_false {marked e A} (h : LRep marked e A) {i : Nat} {v : Var} (hv : e.vars[i]? = some v)
    (hl : isLocal v = true) (hp : popSort e.vars i = false) : ∀ w ∈ e.vars, isLocal w = true → frees w = false := by
  intro w hw hlw
  simp only [popSort, Bool.or_eq_false_iff, List.any_eq_false, Bool.not_eq_true] at hp
  rw [← List.take_append_drop (i + 1) e.vars] at hw
  rcases List.mem_append.1 hw with hw | hw
  · refine hp.1 w ?_
    have hall : ∀ w ∈ (e.vars.take (i + 1)).reverse, isLocal w = true := fun w hw =>
      h.takeLocal hv hl w (List.mem_reverse.1 hw)
    rw [takeWhile_all _ hall]
    exact List.mem_reverse.2 hw
  · refine hp.2 w ?_
    have hpre := h.localPrefix.sublist (List.drop_sublist (i + 1) e.vars)
    generalize e.vars.drop (i + 1) = l at hw hpre
    induction l with
    | nil => simp at hw
    | cons x l ih =>
      have hq := List.pairwise_cons.1 hpre
      rcases List.mem_cons.1 hw with rfl | hw
      · rw [List.takeWhile_cons_of_pos hlw]; simp
      · rw [List.takeWhile_cons_of_pos (hq.1 w hw hlw)]
        exact List.mem_cons_of_mem _ (ih hw hq.2)

theorem popLocals_lspec {L : LibC} {marked e A} (h : LRep marked e A) :
    LRep marked (popLocals L e) (fun k => if LocalName k then aPop (A k) else A k) := by
  have hslot : ∀ v ∈ e.vars, Slot marked (if isLocal v then popVar v else v) := by
    intro v hv
    split
    · rename_i hl
      obtain ⟨n, hn, -⟩ := isLocal_true.1 hl
      have hs := h.core.slot v hv
      unfold Slot at hs ⊢
      unfold popVar
      rw [hn] at hs
      simp only at hs
      cases hp : v.prev with
      | nil =>
        cases hi : v.inherit with
        | false => simp
        | true =>
          simp only [if_true, hn]
          exact hs
      | cons o r =>
        rw [hp] at hs
        have ho := hs.2.2.2 o (by simp)
        obtain ⟨⟨m, hm, ht, hma⟩, hmk⟩ := ho
        cases hi : v.inherit with
        | true =>
          simp only [if_true, hn]
          exact ⟨hs.1, hs.2.1, fun _ => hs.2.2.1 hi, fun o ho => hs.2.2.2 o (by simp [ho])⟩
        | false =>
          simp only [Bool.false_eq_true, if_false, hm]
          rw [ht]
          exact ⟨hs.1, hma, hmk, fun o ho => hs.2.2.2 o (by simp [ho])⟩
    · exact h.core.slot v hv
  have hcore : LCore marked (e.vars.map fun v => if isLocal v then popVar v else v)
      (fun k => if LocalName k then aPop (A k) else A k) := by
    refine h.core.mapF _ (fun k x => if LocalName k then aPop x else x) (fun k => by split <;> rfl) ?_ hslot ?_
    · intro v hv hn
      have : isLocal v = false := by simp [isLocal, hn]
      simp [this]
    · intro v hv n hn
      by_cases hl : n.txt.head? = some '_'
      · have h1 : isLocal v = true := isLocal_true.2 ⟨n, hn, hl⟩
        simp only [h1, if_true, if_pos ((localName_fold n.txt).2 hl)]
        have hs := h.core.slot v hv
        unfold Slot at hs
        rw [hn] at hs
        simp only at hs
        cases hp : v.prev with
        | nil =>
          cases hi : v.inherit with
          | false => left; simp [popVar, hp, hi, aPop, avar]
          | true => right; exact ⟨n, by simp [popVar, hp, hi, hn], rfl, by simp [popVar, hp, hi, aPop, avar]⟩
        | cons o r =>
          right
          rw [hp] at hs
          obtain ⟨⟨m, hm, ht, hma⟩, hmk⟩ := hs.2.2.2 o (by simp)
          cases hi : v.inherit with
          | true => exact ⟨n, by simp [popVar, hp, hi, hn], rfl, by simp [popVar, hp, hi, aPop, avar]⟩
          | false => exact ⟨m, by simp [popVar, hp, hi, hm], ht, by simp [popVar, hp, hi, aPop, avar]⟩
      · right
        have h1 : ¬ isLocal v = true := fun h => by
          obtain ⟨m, hm, hh⟩ := isLocal_true.1 h
          rw [hn] at hm; cases hm; exact hl hh
        simp only [h1, if_neg (fun h => hl ((localName_fold n.txt).1 h))]
        exact ⟨n, hn, rfl, rfl⟩
  unfold popLocals
  rcases walkLocal (L := L) h popVar with ⟨h1, h2⟩ | ⟨i, v, h1, hv, hl, h2⟩
  · rw [h1]
    simp only
    refine ⟨?_, h.sorted, h.fits⟩
    rw [h2]; exact hcore
  · rw [h1]
    simp only [h2]
    split
    · exact LRep.sort hcore (by simpa using h.fits)
    · rename_i hs
      have hfree := popSort_false h hv hl (by simpa using hs)
      refine ⟨hcore, ?_, by simpa using h.fits⟩
      refine sorted_mapF _ h.core.slot hslot ?_ h.sorted
      intro w hw
      split
      · rename_i hlw
        have hf := hfree w hw hlw
        obtain ⟨n, hn, -⟩ := isLocal_true.1 hlw
        have hs := h.core.slot w hw
        unfold Slot at hs
        rw [hn] at hs
        unfold frees at hf
        unfold popVar
        cases hp : w.prev with
        | nil =>
          rw [hp] at hf
          have : w.inherit = true := by simpa using hf
          simp [this]
        | cons o r =>
          rw [hp] at hs
          obtain ⟨⟨m, hm, ht, hma⟩, hmk⟩ := hs.2.2.2 o (by simp)
          cases hi : w.inherit with
          | true => simp [enc]
          | false => simp [enc, hm, hn, ht]
      · rfl

/-! ### Running -/

mutual
theorem pStep_spec {L : LibC} {marked} (c : PCmd) {e A} (h : LRep marked e A) (hn : PNice c)
    (hm : ∀ k, Marks k c → marked k) (hr : ∀ k, Removes k c → ¬ marked k) :
    ∃ e', pStep L e c = some e' ∧ LRep marked e' (fun k => aStep k (A k) c) := by
  match c with
  | .set n c a inh =>
    simp only [PNice] at hn
    simp only [pStep]
    refine setEnvEx_lspec h hn.1 hn.2.1 hn.2.2 ?_ ?_
    · intro hi hc; exact hm _ (by unfold Marks; exact ⟨hc, hi, rfl⟩)
    · intro hc; exact hr _ (by unfold Removes; exact ⟨hc, rfl⟩)
  | .unset n =>
    simp only [PNice] at hn
    simp only [pStep, aStep]
    exact ⟨_, rfl, unSetEnv_lspec h hn (hr _ (by unfold Removes; rfl))⟩
  | .call addr body =>
    simp only [PNice] at hn
    obtain ⟨e', he, hR⟩ := pRun_spec (L := L) body (pushLocals_lspec (L := L) h hn.1) hn.2
      (fun k hk => hm k (by unfold Marks; exact hk)) (fun k hk => hr k (by unfold Removes; exact hk))
    refine ⟨popLocals L e', by simp only [pStep, he, Option.map_some], ?_⟩
    have := popLocals_lspec (L := L) hR
    refine cast (congrArg (LRep marked (popLocals L e')) (funext fun k => ?_)) this
    simp only [aStep]
    split <;> rfl
theorem pRun_spec {L : LibC} {marked} (cs : List PCmd) {e A} (h : LRep marked e A) (hn : PNiceAll cs)
    (hm : ∀ k, MarksAny k cs → marked k) (hr : ∀ k, RemovesAny k cs → ¬ marked k) :
    ∃ e', pRun L e cs = some e' ∧ LRep marked e' (fun k => aRun k (A k) cs) := by
  match cs with
  | [] => exact ⟨e, rfl, h⟩
  | c :: cs =>
    simp only [PNiceAll] at hn
    obtain ⟨e1, he1, h1⟩ := pStep_spec (L := L) c h hn.1 (fun k hk => hm k (by unfold MarksAny; exact .inl hk))
      (fun k hk => hr k (by unfold RemovesAny; exact .inl hk))
    obtain ⟨e2, he2, h2⟩ := pRun_spec (L := L) cs h1 hn.2 (fun k hk => hm k (by unfold MarksAny; exact .inr hk))
      (fun k hk => hr k (by unfold RemovesAny; exact .inr hk))
    refine ⟨e2, by simp only [pRun, he1, Option.bind_some, he2], h2⟩
end

theorem PReach.rep {L : LibC} {marked e} (h : PReach L marked e) : ∃ A, LRep marked e A := by
  induction h with
  | @init env e heq hside huniq hnice he =>
    obtain ⟨e', he', hR⟩ := initEnv_spec (L := L) (pos := true) heq hside huniq
    rw [he] at he'; cases he'
    have hmem : ∀ v ∈ e.vars, ∃ s ∈ env, v = { name := some { addr := s.addr, txt := initName s.txt }, content := initValue s.txt, inherit := false, prev := [] } := by
      have hmap : env.mapM initVar = some (env.map fun s =>
          { name := some { addr := s.addr, txt := initName s.txt }, content := initValue s.txt,
            inherit := false, prev := [] }) := by
        clear hside huniq hnice he hR
        induction env with
        | nil => rfl
        | cons s env ih =>
          rw [List.mapM_cons, initVar_eq (heq s (by simp)), ih (fun x hx => heq x (by simp [hx]))]
          rfl
      unfold initEnv at he
      rw [hmap] at he
      simp only [Option.map_some, Option.some.injEq] at he
      subst he
      intro v hv
      have hc : Consistent envCompName (env.map fun s => ({ name := some { addr := s.addr, txt := initName s.txt }, content := initValue s.txt, inherit := false, prev := [] } : Var)) := by
        refine consistent_of_signLex (enc := enc true) fun a ha b hb => compName_sign ?_ ?_
        · intro n hn
          obtain ⟨s, hs, rfl⟩ := List.mem_map.1 ha
          cases hn; exact hside s hs
        · intro n hn
          obtain ⟨s, hs, rfl⟩ := List.mem_map.1 hb
          cases hn; exact hside s hs
      have := (L.qsort_perm _ _ hc).mem_iff.1 hv
      obtain ⟨s, hs, rfl⟩ := List.mem_map.1 this
      exact ⟨s, hs, rfl⟩
    refine ⟨fun k => (initMap (env.map CPtr.txt) k).map fun c => ⟨c, false, []⟩, ⟨?_, hR.core.uniq, ?_⟩, hR.sorted, hR.fits⟩
    · intro v hv
      obtain ⟨s, hs, rfl⟩ := hmem v hv
      exact ⟨hnice s hs, hside s hs, by simp, by simp⟩
    · intro k a
      constructor
      · intro h
        obtain ⟨c, hc, rfl⟩ := Option.map_eq_some_iff.1 h
        obtain ⟨v, hv, n, hn, hf, rfl⟩ := (hR.core.map _ _).1 hc
        refine ⟨v, hv, n, hn, hf, ?_⟩
        obtain ⟨s, hs, rfl⟩ := hmem v hv
        rfl
      · rintro ⟨v, hv, n, hn, hf, rfl⟩
        rw [(hR.core.map k v.content).2 ⟨v, hv, n, hn, hf, rfl⟩]
        obtain ⟨s, hs, rfl⟩ := hmem v hv
        rfl
  | @step e e' c _ hn hm hr hs ih =>
    obtain ⟨A, hA⟩ := ih
    obtain ⟨e2, he2, h2⟩ := pStep_spec (L := L) c hA hn hm hr
    rw [hs] at he2; cases he2
    exact ⟨_, h2⟩
  | @enter e addr _ ha ih =>
    obtain ⟨A, hA⟩ := ih
    exact ⟨_, pushLocals_lspec hA ha⟩

end PBat
