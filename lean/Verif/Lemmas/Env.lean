import Verif.Spec.Env
import Verif.Lemmas.LibC
/-
Helper lemmas for the environment.
-/
namespace PBat
open Spec

theorem codes_eq (s : List Char) : codes s = (fold s).map Char.toNat := by
  simp [codes, fold, Function.comp_def]

theorem toNat_inj {a b : Char} (h : a.toNat = b.toNat) : a = b := by
  apply Char.ext
  exact UInt32.toNat_inj.1 h

theorem codes_inj {a b : List Char} : codes a = codes b ↔ fold a = fold b := by
  rw [codes_eq, codes_eq]
  constructor
  · intro h
    exact (List.map_inj_right (fun x y h => toNat_inj h)).1 h
  · intro h; rw [h]

/-- Sort key of a slot: dead slots are last when addresses are positive, first otherwise. -/
def enc (pos : Bool) (v : Var) : List Nat :=
  match v.name with
  | none => [if pos then 2 else 0]
  | some n => 1 :: codes n.txt

/-- All name pointers on one side. -/
def Side (pos : Bool) (v : Var) : Prop := ∀ n, v.name = some n → SameSide pos n.addr

theorem compName_sign {pos : Bool} {a b : Var} (ha : Side pos a) (hb : Side pos b) :
    SignLex envCompName (enc pos) a b := by
  unfold Side SameSide at *
  unfold SignLex envCompName enc
  cases hna : a.name with
  | none =>
    cases hnb : b.name with
    | none => cases pos <;> simp [lexCmp]
    | some y => cases pos <;> have := hb y hnb <;> simp_all [lexCmp] <;> omega
  | some x =>
    cases hnb : b.name with
    | none => cases pos <;> have := ha x hna <;> simp_all [lexCmp] <;> omega
    | some y => simp [lexCmp, stricmp, lexCmp_eq_zero]

theorem envCompName_congr {a b a' b' : Var} (ha : a.name = a'.name) (hb : b.name = b'.name) :
    envCompName a b = envCompName a' b' := by
  unfold envCompName; rw [ha, hb]

/-- Two live slots have different names. -/
def Differ (a b : Var) : Prop :=
  ∀ x y, a.name = some x → b.name = some y → fold x.txt ≠ fold y.txt

theorem Differ.symm {a b : Var} (h : Differ a b) : Differ b a := fun x y hx hy h' => h y x hy hx h'.symm

/-- The facts about the slots that do not depend on their order. -/
structure Core (pos : Bool) (l : List Var) (M : Map) : Prop where
  side : ∀ v ∈ l, Side pos v
  uniq : l.Pairwise Differ
  prev : ∀ v ∈ l, v.prev = []
  map : ∀ k c, M k = some c ↔ ∃ v ∈ l, ∃ n, v.name = some n ∧ fold n.txt = k ∧ v.content = c

theorem Core.perm {pos : Bool} {l l' : List Var} {M : Map} (h : Core pos l M) (hp : l'.Perm l) :
    Core pos l' M where
  side := fun v hv => h.side v (hp.mem_iff.1 hv)
  uniq := (List.Perm.pairwise_iff (fun h => Differ.symm h) hp).2 h.uniq
  prev := fun v hv => h.prev v (hp.mem_iff.1 hv)
  map := fun k c => by
    rw [h.map]
    constructor <;> rintro ⟨v, hv, h⟩
    · exact ⟨v, hp.mem_iff.2 hv, h⟩
    · exact ⟨v, hp.mem_iff.1 hv, h⟩

/-- The environment represents the map `M`. -/
structure EnvRep (pos : Bool) (e : EnvBuf) (M : Map) : Prop where
  core : Core pos e.vars M
  sorted : e.vars.Pairwise (envCompName · · ≤ 0)
  fits : e.vars.length ≤ e.nb

theorem set_perm {l : List Var} {i : Nat} {v : Var} (h : l[i]? = some v) :
    ∃ rest, l.Perm (v :: rest) ∧ ∀ v', (l.set i v').Perm (v' :: rest) := by
  obtain ⟨hi, rfl⟩ := List.getElem?_eq_some_iff.1 h
  refine ⟨l.take i ++ l.drop (i + 1), ?_, ?_⟩
  · conv => lhs; rw [← List.take_append_drop i l, List.drop_eq_getElem_cons hi]
    exact List.perm_middle
  · intro v'
    rw [List.set_eq_take_append_cons_drop, if_pos hi]
    exact List.perm_middle

theorem Core.consistent {pos : Bool} {l : List Var} {M : Map} (h : Core pos l M) : Consistent envCompName l :=
  consistent_of_signLex fun _ ha _ hb => compName_sign (h.side _ ha) (h.side _ hb)

theorem EnvRep.ordered {pos : Bool} {e : EnvBuf} {M : Map} (h : EnvRep pos e M) {k : Var} (hk : Side pos k) :
    OrderedFor envCompName k e.vars :=
  orderedFor_of_signLex (fun _ ha _ hb => compName_sign (h.core.side _ ha) (h.core.side _ hb))
    (fun _ ha => compName_sign hk (h.core.side _ ha)) h.sorted

theorem EnvRep.sort {pos : Bool} {L : LibC} {l : List Var} {M : Map} {nb : Nat} (h : Core pos l M)
    (hn : l.length ≤ nb) : EnvRep pos { nb := nb, vars := L.qsort envCompName l } M where
  core := h.perm (L.qsort_perm _ _ h.consistent)
  sorted := L.qsort_sorted _ _ h.consistent
  fits := by
    simpa [(L.qsort_perm _ _ h.consistent).length_eq] using hn

theorem side_key {pos : Bool} {n : CPtr} (h : SameSide pos n.addr) : Side pos (keyVar (some n)) := by
  intro m hm; simp [keyVar] at hm; subst hm; exact h

theorem side_dead {pos : Bool} : Side pos (keyVar none) := by
  intro m hm; simp [keyVar] at hm

theorem enc_key_eq {pos : Bool} {n : CPtr} {v : Var} :
    enc pos (keyVar (some n)) = enc pos v ↔ ∃ m, v.name = some m ∧ fold m.txt = fold n.txt := by
  unfold enc keyVar
  cases hv : v.name with
  | none => cases pos <;> simp
  | some m =>
    simp only [List.cons.injEq, true_and, Option.some.injEq, exists_eq_left']
    rw [codes_inj]; exact eq_comm

theorem enc_dead_eq {pos : Bool} {v : Var} : enc pos (keyVar none) = enc pos v ↔ v.name = none := by
  unfold enc keyVar
  cases hv : v.name with
  | none => simp
  | some m => cases pos <;> simp

/-- Searching a name. -/
theorem search_name {L : LibC} {pos : Bool} {e : EnvBuf} {M : Map} (h : EnvRep pos e M) {n : CPtr}
    (hn : SameSide pos n.addr) :
    (∃ i v m, L.bsearch envCompName (keyVar (some n)) e.vars = some i ∧ e.vars[i]? = some v ∧
      v.name = some m ∧ fold m.txt = fold n.txt ∧ M (fold n.txt) = some v.content) ∨
    (L.bsearch envCompName (keyVar (some n)) e.vars = none ∧ M (fold n.txt) = none ∧
      ∀ v ∈ e.vars, ∀ m, v.name = some m → fold m.txt ≠ fold n.txt) := by
  have ho := h.ordered (side_key hn)
  cases hs : L.bsearch envCompName (keyVar (some n)) e.vars with
  | some i =>
    left
    obtain ⟨v, hv, hc⟩ := L.bsearch_some _ _ _ _ ho hs
    have hmem := List.mem_of_getElem? hv
    obtain ⟨m, hm, hf⟩ := enc_key_eq.1 ((compName_sign (side_key hn) (h.core.side v hmem)).2.1 hc)
    exact ⟨i, v, m, rfl, hv, hm, hf, (h.core.map _ _).2 ⟨v, hmem, m, hm, hf, rfl⟩⟩
  | none =>
    right
    have hne : ∀ v ∈ e.vars, ∀ m, v.name = some m → fold m.txt ≠ fold n.txt := by
      intro v hv m hm hf
      exact L.bsearch_none _ _ _ ho hs v hv
        ((compName_sign (side_key hn) (h.core.side v hv)).2.2 (enc_key_eq.2 ⟨m, hm, hf⟩))
    refine ⟨rfl, ?_, hne⟩
    cases hM : M (fold n.txt) with
    | none => rfl
    | some c =>
      obtain ⟨v, hv, m, hm, hf, -⟩ := (h.core.map _ _).1 hM
      exact absurd hf (hne v hv m hm)

/-- Searching a free slot. -/
theorem search_dead {L : LibC} {pos : Bool} {e : EnvBuf} {M : Map} (h : EnvRep pos e M) :
    (∃ i v, L.bsearch envCompName (keyVar none) e.vars = some i ∧ e.vars[i]? = some v ∧ v.name = none) ∨
    L.bsearch envCompName (keyVar none) e.vars = none := by
  have ho := h.ordered (side_dead (pos := pos))
  cases hs : L.bsearch envCompName (keyVar none) e.vars with
  | some i =>
    left
    obtain ⟨v, hv, hc⟩ := L.bsearch_some _ _ _ _ ho hs
    have hmem := List.mem_of_getElem? hv
    exact ⟨i, v, rfl, hv, enc_dead_eq.1 ((compName_sign side_dead (h.core.side v hmem)).2.1 hc)⟩
  | none => right; rfl

theorem getEnv_spec {L : LibC} {pos : Bool} {e : EnvBuf} {M : Map} (h : EnvRep pos e M) {n : CPtr}
    (hn : SameSide pos n.addr) : getEnv L e n = M (fold n.txt) := by
  unfold getEnv
  rcases search_name (L := L) h hn with ⟨i, v, m, h1, h2, h3, h4, h5⟩ | ⟨h1, h2, -⟩
  · rw [h1]; simp only [h2, h3, h5, Option.bind_some, Option.map_some]
  · rw [h1, h2]

/-- Facts about the other slots once one live slot has been singled out. -/
theorem Core.others {pos : Bool} {v : Var} {rest : List Var} {M : Map} (h : Core pos (v :: rest) M) :
    ∀ k c, (∃ w ∈ rest, ∃ n, w.name = some n ∧ fold n.txt = k ∧ w.content = c) ↔
      M k = some c ∧ ∀ m, v.name = some m → fold m.txt ≠ k := by
  intro k c
  have hu := List.pairwise_cons.1 h.uniq
  constructor
  · rintro ⟨w, hw, n, hn, hf, hc⟩
    refine ⟨(h.map k c).2 ⟨w, by simp [hw], n, hn, hf, hc⟩, ?_⟩
    intro m hm hmk
    exact hu.1 w hw m n hm hn (hmk.trans hf.symm)
  · rintro ⟨hM, hne⟩
    obtain ⟨w, hw, n, hn, hf, hc⟩ := (h.map k c).1 hM
    rcases List.mem_cons.1 hw with rfl | hw
    · exact absurd hf (hne n hn)
    · exact ⟨w, hw, n, hn, hf, hc⟩

/-- Replacing one slot. -/
theorem Core.replace {pos : Bool} {v v' : Var} {rest : List Var} {M M' : Map} (h : Core pos (v :: rest) M)
    (hs : Side pos v') (hp : v'.prev = [])
    (hd : ∀ w ∈ rest, Differ v' w)
    (hM : ∀ k c, M' k = some c ↔
      (∃ n, v'.name = some n ∧ fold n.txt = k ∧ v'.content = c) ∨
      (M k = some c ∧ ∀ m, v.name = some m → fold m.txt ≠ k)) : Core pos (v' :: rest) M' where
  side := fun w hw => by
    rcases List.mem_cons.1 hw with rfl | hw
    · exact hs
    · exact h.side w (by simp [hw])
  uniq := List.pairwise_cons.2 ⟨hd, (List.pairwise_cons.1 h.uniq).2⟩
  prev := fun w hw => by
    rcases List.mem_cons.1 hw with rfl | hw
    · exact hp
    · exact h.prev w (by simp [hw])
  map := fun k c => by
    rw [hM, ← h.others]
    constructor
    · rintro (⟨n, h1, h2, h3⟩ | ⟨w, hw, n, hn⟩)
      · exact ⟨v', by simp, n, h1, h2, h3⟩
      · exact ⟨w, by simp [hw], n, hn⟩
    · rintro ⟨w, hw, n, hn⟩
      rcases List.mem_cons.1 hw with rfl | hw
      · exact .inl ⟨n, hn⟩
      · exact .inr ⟨w, hw, n, hn⟩

theorem unSetEnv_spec {L : LibC} {pos : Bool} {e : EnvBuf} {M : Map} (h : EnvRep pos e M) {n : CPtr}
    (hn : SameSide pos n.addr) : EnvRep pos (unSetEnv L e n) (M.put (fold n.txt) none) := by
  unfold unSetEnv
  rcases search_name (L := L) h hn with ⟨i, v, m, h1, h2, h3, h4, h5⟩ | ⟨h1, h2, -⟩
  · rw [h1]
    simp only [h2, h.core.prev v (List.mem_of_getElem? h2), if_true]
    obtain ⟨rest, hp, hp'⟩ := set_perm h2
    have hc := h.core.perm hp.symm
    refine EnvRep.sort ?_ (by simpa using h.fits)
    refine Core.perm ?_ (hp' _)
    refine hc.replace ?_ rfl ?_ ?_
    · intro x hx; simp at hx
    · intro w _ x y hx; simp at hx
    · intro k c
      simp only [h3, Map.put]
      by_cases hk : k = fold n.txt
      · subst hk; simp [h4]
      · rw [if_neg hk]
        constructor
        · intro hM; exact .inr ⟨hM, fun m' hm' => by cases hm'; rw [h4]; exact fun h => hk h.symm⟩
        · rintro (⟨n, h1, -⟩ | ⟨hM, -⟩)
          · simp at h1
          · exact hM
  · rw [h1]
    have : M.put (fold n.txt) none = M := by
      funext k; simp only [Map.put]; split
      · rename_i hk; rw [hk, h2]
      · rfl
    rw [this]; exact h

/-! ### Trimming -/

theorem adjustLoop_append (pre : List Char) (best : Option (List Char)) (s : List Char) :
    adjustLoop pre best s =
      if (s.reverse.dropWhile blank) = [] then best else some (pre ++ (s.reverse.dropWhile blank).reverse) := by
  induction s generalizing pre best with
  | nil => simp [adjustLoop]
  | cons c s ih =>
    simp only [adjustLoop, List.reverse_cons, List.dropWhile_append]
    have hb : blank c = true ↔ ¬ (c ≠ '\t' ∧ c ≠ ' ') := by
      unfold blank; simp; grind
    by_cases he : (s.reverse.dropWhile blank) = []
    · simp only [he, List.isEmpty_nil, if_true]
      split
      · rename_i hc
        have : blank c = false := by
          cases hx : blank c
          · rfl
          · exact absurd hc (hb.1 hx)
        rw [ih]; simp [he, List.dropWhile, this]
      · rename_i hc
        have := hb.2 hc
        rw [ih]; simp [he, List.dropWhile, this]
    · have : (List.dropWhile blank s.reverse).isEmpty = false := by
        cases h : List.dropWhile blank s.reverse <;> simp_all
      simp only [this, Bool.false_eq_true, if_false]
      split <;> (rw [ih]; simp [he])

theorem adjustVarName_eq (s : List Char) : adjustVarName s = trim s := by
  unfold adjustVarName trim
  rw [adjustLoop_append]
  simp only [List.reverse_eq_nil_iff, List.nil_append]
  split <;> rfl

theorem setEnvEx_spec {L : LibC} {pos : Bool} {e : EnvBuf} {M : Map} (h : EnvRep pos e M) {n : CPtr}
    {c : List Char} {cpy : Int} {inh : Bool}
    (hn : SameSide pos n.addr) (hcpy : SameSide pos cpy) :
    ∃ e', setEnvEx L e n c cpy inh = some e' ∧
      EnvRep pos e' (if c = [] then M.put (fold n.txt) none else M.put (fold (trim n.txt)) (some c)) := by
  unfold setEnvEx
  split
  · exact ⟨_, rfl, unSetEnv_spec h hn⟩
  · have hnm : SameSide pos (CPtr.mk cpy (adjustVarName n.txt)).addr := hcpy
    simp only
    rcases search_name (L := L) h hnm with ⟨i, v, m, h1, h2, h3, h4, h5⟩ | ⟨h1, h2, hne⟩
    · rw [h1]
      simp only [h2, Option.map_some]
      simp only [adjustVarName_eq] at h4 h5
      refine ⟨_, rfl, ?_, ?_, ?_⟩
      · obtain ⟨rest, hp, hp'⟩ := set_perm h2
        have hc := h.core.perm hp.symm
        refine Core.perm ?_ (hp' _)
        refine hc.replace ?_ ?_ ?_ ?_
        · exact hc.side v (by simp)
        · exact hc.prev v (by simp)
        · exact (List.pairwise_cons.1 hc.uniq).1
        · intro k c'
          simp only [h3, Map.put]
          by_cases hk : k = fold (trim n.txt)
          · subst hk; simp [h4]
          · rw [if_neg hk]
            constructor
            · intro hM; exact .inr ⟨hM, fun m' hm' => by cases hm'; rw [h4]; exact fun h => hk h.symm⟩
            · rintro (⟨x, hx, hxk, -⟩ | ⟨hM, -⟩)
              · cases hx; rw [h4] at hxk; exact absurd hxk.symm hk
              · exact hM
      · simp only [List.pairwise_iff_getElem, List.length_set]
        intro a b ha hb hab
        have := List.pairwise_iff_getElem.1 h.sorted a b ha hb hab
        obtain ⟨hi, hv⟩ := List.getElem?_eq_some_iff.1 h2
        refine Int.le_trans (Int.le_of_eq (envCompName_congr ?_ ?_)) this <;>
          · simp only [List.getElem_set]
            split
            · subst_vars; rfl
            · rfl
      · simpa using h.fits
    · rw [h1]
      simp only
      simp only [adjustVarName_eq] at h2 hne ⊢
      have hput : ∀ k c', (M.put (fold (trim n.txt)) (some c)) k = some c' ↔
          (fold (trim n.txt) = k ∧ c = c') ∨ M k = some c' := by
        intro k c'
        unfold Map.put
        by_cases hk : k = fold (trim n.txt)
        · subst hk; simp [h2]
        · rw [if_neg hk]; simp; intro hk'; exact absurd hk'.symm hk
      rcases search_dead (L := L) h with ⟨i, v, h3, h4, h5⟩ | h3
      · rw [h3]
        simp only [h4, Option.map_some]
        refine ⟨_, rfl, ?_⟩
        obtain ⟨rest, hp, hp'⟩ := set_perm h4
        have hc := h.core.perm hp.symm
        refine EnvRep.sort ?_ (by simpa using h.fits)
        refine Core.perm ?_ (hp' _)
        refine hc.replace ?_ rfl ?_ ?_
        · intro x hx; cases hx; exact hcpy
        · intro w hw x y hx hy
          cases hx
          exact fun h => hne w (hp.mem_iff.2 (by simp [hw])) y hy h.symm
        · intro k c'
          rw [hput]
          simp [h5]
      · rw [h3]
        simp only
        have hlt : e.vars.length < (if e.vars.length = e.nb then roundNb (e.nb + 1) else e.nb) := by
          have := h.fits
          split
          · unfold roundNb; omega
          · omega
        rw [if_pos hlt]
        refine ⟨_, rfl, EnvRep.sort ?_ (by simp only [List.length_append, List.length_singleton]; exact hlt)⟩
        refine Core.perm ?_ List.perm_append_comm
        refine ⟨?_, ?_, ?_, ?_⟩
        · intro w hw
          simp only [List.singleton_append, List.mem_cons] at hw
          rcases hw with rfl | hw
          · intro x hx; cases hx; exact hcpy
          · exact h.core.side w hw
        · refine List.pairwise_cons.2 ⟨?_, h.core.uniq⟩
          intro w hw x y hx hy
          cases hx
          exact fun h => hne w hw y hy h.symm
        · intro w hw
          simp only [List.singleton_append, List.mem_cons] at hw
          rcases hw with rfl | hw
          · rfl
          · exact h.core.prev w hw
        · intro k c'
          rw [hput, h.core.map]
          constructor
          · rintro (⟨h1, h2⟩ | ⟨w, hw, h⟩)
            · exact ⟨_, by simp; left; rfl, _, rfl, h1, h2⟩
            · exact ⟨w, by simp [hw], h⟩
          · rintro ⟨w, hw, x, hx, hk, hc⟩
            simp only [List.singleton_append, List.mem_cons] at hw
            rcases hw with rfl | hw
            · cases hx; exact .inl ⟨hk, hc⟩
            · exact .inr ⟨w, hw, x, hx, hk, hc⟩

theorem runEnv_spec {L : LibC} {pos : Bool} (ops : List EnvOp) {e : EnvBuf} {M : Map} (h : EnvRep pos e M)
    (hops : ∀ o ∈ ops, OpSide pos o) :
    ∃ e', runEnv L e ops = some (e', runMapExact M ops) := by
  induction ops generalizing e M with
  | nil => exact ⟨e, rfl⟩
  | cons o ops ih =>
    have ho := hops o (by simp)
    have hr := fun x hx => hops x (List.mem_cons_of_mem _ hx)
    cases o with
    | set n c cpy inh =>
      obtain ⟨e', he, hR⟩ := setEnvEx_spec (L := L) (c := c) (inh := inh) h ho.1 ho.2
      obtain ⟨e2, h2⟩ := ih hR hr
      refine ⟨e2, ?_⟩
      simp only [runEnv, he, Option.bind_some, h2, runMapExact]
    | unset n =>
      obtain ⟨e2, h2⟩ := ih (unSetEnv_spec (L := L) h ho) hr
      exact ⟨e2, by simp only [runEnv, h2, runMapExact]⟩
    | get n =>
      obtain ⟨e2, h2⟩ := ih h hr
      exact ⟨e2, by simp only [runEnv, h2, runMapExact, Option.map_some, getEnv_spec h ho]⟩

/-! ### The inherited environment -/

theorem split_eq {s : List Char} (h : '=' ∈ s) :
    ∃ n r, s = n ++ '=' :: r ∧ '=' ∉ n := by
  induction s with
  | nil => simp at h
  | cons c s ih =>
    by_cases hc : c = '='
    · subst hc; exact ⟨[], s, rfl, by simp⟩
    · obtain ⟨n, r, h1, h2⟩ := ih (by simpa [Ne.symm hc] using h)
      exact ⟨c :: n, r, by simp [h1], by simp [h2, Ne.symm hc]⟩

theorem takeWhile_ne {n r : List Char} (h : '=' ∉ n) :
    (n ++ '=' :: r).takeWhile (· ≠ '=') = n := by
  induction n with
  | nil => simp
  | cons c n ih =>
    simp only [List.mem_cons, not_or] at h
    simp [Ne.symm h.1] at ih ⊢
    exact ih h.2

theorem dropWhile_ne {n r : List Char} (h : '=' ∉ n) :
    (n ++ '=' :: r).dropWhile (· ≠ '=') = '=' :: r := by
  induction n with
  | nil => simp
  | cons c n ih =>
    simp only [List.mem_cons, not_or] at h
    simp [Ne.symm h.1] at ih ⊢
    exact ih h.2

theorem trim_split (n r : List Char) :
    trim (n ++ '=' :: r) = n ++ '=' :: (r.reverse.dropWhile blank).reverse := by
  have h : ((n ++ '=' :: r).reverse.dropWhile blank).reverse = n ++ '=' :: (r.reverse.dropWhile blank).reverse := by
    simp only [List.reverse_append, List.reverse_cons, List.dropWhile_append]
    by_cases he : (r.reverse.dropWhile blank) = []
    · simp [he, List.dropWhile, blank]
    · have : (List.dropWhile blank r.reverse).isEmpty = false := by
        cases h : List.dropWhile blank r.reverse <;> simp_all
      simp [this]
  unfold trim
  simp only [h]
  simp

theorem initVar_eq {s : CPtr} (h : '=' ∈ s.txt) :
    initVar s = some { name := some { addr := s.addr, txt := initName s.txt }, content := initValue s.txt,
                       inherit := false, prev := [] } := by
  obtain ⟨n, r, hs, hn⟩ := split_eq h
  unfold initVar
  simp only [if_pos h, adjustVarName_eq]
  simp only [initName, initValue, hs, trim_split, takeWhile_ne hn, dropWhile_ne hn]
  simp

theorem initEnv_spec {L : LibC} {pos : Bool} {env : List CPtr}
    (heq : ∀ s ∈ env, '=' ∈ s.txt) (hside : ∀ s ∈ env, SameSide pos s.addr)
    (huniq : (env.map fun s => fold (initName s.txt)).Nodup) :
    ∃ e, initEnv L env = some e ∧ EnvRep pos e (initMap (env.map CPtr.txt)) := by
  have hmap : env.mapM initVar = some (env.map fun s =>
      { name := some { addr := s.addr, txt := initName s.txt }, content := initValue s.txt,
        inherit := false, prev := [] }) := by
    clear hside huniq
    induction env with
    | nil => rfl
    | cons s env ih =>
      rw [List.mapM_cons, initVar_eq (heq s (by simp)), ih (fun x hx => heq x (by simp [hx]))]
      rfl
  unfold initEnv
  rw [hmap]
  refine ⟨_, rfl, EnvRep.sort ?_ (by simp [roundNb]; omega)⟩
  refine ⟨?_, ?_, ?_, ?_⟩
  · intro v hv n hn
    obtain ⟨s, hs, rfl⟩ := List.mem_map.1 hv
    cases hn; exact hside s hs
  · rw [List.pairwise_map]
    rw [List.nodup_iff_pairwise_ne, List.pairwise_map] at huniq
    refine huniq.imp ?_
    intro a b h x y hx hy
    cases hx; cases hy; exact h
  · intro v hv
    obtain ⟨s, hs, rfl⟩ := List.mem_map.1 hv
    rfl
  · intro k c
    clear hmap heq hside
    unfold initMap
    induction env with
    | nil => simp
    | cons s env ih =>
      rw [List.map_cons, List.nodup_cons] at huniq
      have ih := ih huniq.2
      simp only [List.map_cons, List.find?_cons]
      by_cases hk : fold (initName s.txt) = k
      · simp only [hk, decide_true, Option.map_some, Option.some.injEq]
        constructor
        · intro hc
          exact ⟨_, List.mem_cons_self, _, rfl, hk, hc⟩
        · rintro ⟨v, hv, n, hn, hf, hc⟩
          rcases List.mem_cons.1 hv with rfl | hv
          · exact hc
          · obtain ⟨t, ht, rfl⟩ := List.mem_map.1 hv
            cases hn
            exact absurd (List.mem_map.2 ⟨t, ht, hf.trans hk.symm⟩) huniq.1
      · simp only [hk, decide_false]
        rw [ih]
        constructor
        · rintro ⟨v, hv, h⟩; exact ⟨v, List.mem_cons_of_mem _ hv, h⟩
        · rintro ⟨v, hv, n, hn, hf, hc⟩
          rcases List.mem_cons.1 hv with rfl | hv
          · cases hn; exact absurd hf hk
          · exact ⟨v, hv, n, hn, hf, hc⟩

theorem runMapExact_trimmed (ops : List EnvOp) (M : Map) (h : ∀ o ∈ ops, OpTrimmed o) :
    runMapExact M ops = runMap M ops := by
  induction ops generalizing M with
  | nil => rfl
  | cons o ops ih =>
    have ho := h o (by simp)
    have ih := fun M => ih M fun x hx => h x (List.mem_cons_of_mem _ hx)
    cases o with
    | set n c cpy inh =>
      simp only [runMapExact, runMap, value, key]
      by_cases hc : c = []
      · simp only [hc, if_true, ho hc, ih]
      · simp only [if_neg hc, ih]
    | unset n =>
      have ho : trim n.txt = n.txt := ho
      simp only [runMapExact, runMap, key, ho, ih]
    | get n =>
      have ho : trim n.txt = n.txt := ho
      simp only [runMapExact, runMap, key, ho, ih]

end PBat
