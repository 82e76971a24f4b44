import Verif.Lemmas.Env
import Verif.Spec.CmdList
/-
Lemmas on the table of commands.
-/
namespace PBat
open Spec

variable {π : Type}

theorem lexCmp_take_gt {a b : List Nat} (h : lexCmp (a.take b.length) b > 0) : lexCmp a b > 0 := by
  induction b generalizing a with
  | nil => simp [lexCmp] at h
  | cons y b ih =>
    cases a with
    | nil => simp [lexCmp] at h
    | cons x a =>
      simp only [List.length_cons, List.take_succ_cons, lexCmp] at h ⊢
      split at h
      · omega
      · split at h
        · rw [if_neg (by assumption), if_pos (by assumption)]; omega
        · rw [if_neg (by assumption), if_neg (by assumption)]; exact ih h

theorem lexCmp_take_lt {a b : List Nat} (h : lexCmp (a.take b.length) b < 0) : lexCmp a b < 0 := by
  induction b generalizing a with
  | nil => simp [lexCmp] at h
  | cons y b ih =>
    cases a with
    | nil => simp [lexCmp]
    | cons x a =>
      simp only [List.length_cons, List.take_succ_cons, lexCmp] at h ⊢
      split at h
      · rw [if_pos (by assumption)]; omega
      · split at h
        · omega
        · rw [if_neg (by assumption), if_neg (by assumption)]; exact ih h

theorem lexCmp_append (b s : List Nat) : lexCmp (b ++ s) b = if s = [] then 0 else 1 := by
  induction b with
  | nil => cases s <;> simp [lexCmp]
  | cons y b ih => simp [lexCmp, ih]

theorem lexCmp_prefix_le {b a : List Nat} (h : b <+: a) : lexCmp b a ≤ 0 := by
  obtain ⟨s, rfl⟩ := h
  rw [lexCmp_neg, lexCmp_append]
  split <;> omega

/-- What lies between a text and a continuation of it continues it too. -/
theorem lexCmp_between {b y a : List Nat} (h : b <+: a) (h1 : lexCmp b y ≤ 0) (h2 : lexCmp y a ≤ 0) : b <+: y := by
  induction b generalizing y a with
  | nil => exact List.nil_prefix
  | cons c b ih =>
    cases y with
    | nil => simp [lexCmp] at h1
    | cons d y =>
      obtain ⟨s, rfl⟩ := h
      rw [List.cons_append] at h2
      rw [lexCmp] at h1 h2
      have hcd : c = d := by
        by_cases h3 : c < d
        · rw [if_neg (by omega), if_pos h3] at h2
          omega
        · by_cases h4 : d < c
          · rw [if_neg h3, if_pos h4] at h1; omega
          · omega
      subst hcd
      simp only [Nat.lt_irrefl, if_false] at h1 h2
      exact List.cons_prefix_cons.2 ⟨rfl, ih ⟨s, rfl⟩ h1 h2⟩

/-- The entries of a table are in order. -/
def CmdTree.Sorted : CmdTree π → Prop
  | .leaf => True
  | .node x l r => l.Sorted ∧ r.Sorted ∧ (∀ y ∈ l.entries, lexCmp (codes y.name) (codes x.name) < 0) ∧
      ∀ y ∈ r.entries, lexCmp (codes x.name) (codes y.name) < 0

theorem mem_add_of {e y : CmdEntry π} {t : CmdTree π} (h : y ∈ (t.add e).entries) : y = e ∨ y ∈ t.entries := by
  induction t with
  | leaf => simpa [CmdTree.add, CmdTree.entries] using h
  | node x l r ihl ihr =>
    rw [CmdTree.add] at h
    split at h
    · simp only [CmdTree.entries, List.mem_cons, List.mem_append] at h ⊢
      grind
    · split at h
      · simp only [CmdTree.entries, List.mem_cons, List.mem_append] at h ⊢
        grind
      · exact .inr h

theorem mem_add {e y : CmdEntry π} {t : CmdTree π} (h : y ∈ t.entries) : y ∈ (t.add e).entries := by
  induction t with
  | leaf => simp [CmdTree.entries] at h
  | node x l r ihl ihr =>
    rw [CmdTree.add]
    split
    · simp only [CmdTree.entries, List.mem_cons, List.mem_append] at h ⊢
      grind
    · split
      · simp only [CmdTree.entries, List.mem_cons, List.mem_append] at h ⊢
        grind
      · exact h

theorem sorted_add {e : CmdEntry π} {t : CmdTree π} (h : t.Sorted) : (t.add e).Sorted := by
  induction t with
  | leaf => simp [CmdTree.add, CmdTree.Sorted, CmdTree.entries]
  | node x l r ihl ihr =>
    obtain ⟨h1, h2, h3, h4⟩ := h
    rw [CmdTree.add]
    split
    · next hc =>
      refine ⟨h1, ihr h2, h3, fun y hy => ?_⟩
      rcases mem_add_of hy with rfl | hy
      · have := lexCmp_neg (codes y.name) (codes x.name)
        unfold stricmp at hc
        omega
      · exact h4 y hy
    · split
      · next hc =>
        refine ⟨ihl h1, h2, fun y hy => ?_, h4⟩
        rcases mem_add_of hy with rfl | hy
        · exact hc
        · exact h3 y hy
      · exact ⟨h1, h2, h3, h4⟩

/-- The new entry is there unless one of the same name was. -/
theorem mem_add_new {e : CmdEntry π} {t : CmdTree π} (h : ∀ x ∈ t.entries, fold x.name ≠ fold e.name) : e ∈ (t.add e).entries := by
  induction t with
  | leaf => simp [CmdTree.add, CmdTree.entries]
  | node x l r ihl ihr =>
    have h0 := h x (by simp [CmdTree.entries])
    rw [CmdTree.add]
    split
    · have := ihr (fun y hy => h y (by simp [CmdTree.entries, hy]))
      simp [CmdTree.entries, this]
    · split
      · have := ihl (fun y hy => h y (by simp [CmdTree.entries, hy]))
        simp [CmdTree.entries, this]
      · exfalso
        have : lexCmp (codes e.name) (codes x.name) = 0 := by unfold stricmp at *; omega
        exact h0 (codes_inj.1 ((lexCmp_eq_zero _ _).1 this)).symm

theorem add_old {e : CmdEntry π} {t : CmdTree π} (hs : t.Sorted) (h : ∃ x ∈ t.entries, fold x.name = fold e.name) : t.add e = t := by
  obtain ⟨x, hx, hn⟩ := h
  induction t with
  | leaf => simp [CmdTree.entries] at hx
  | node z l r ihl ihr =>
    obtain ⟨h1, h2, h3, h4⟩ := hs
    have hc := codes_inj.2 hn
    rw [CmdTree.add]
    unfold stricmp
    rw [← hc]
    simp only [CmdTree.entries, List.mem_cons, List.mem_append] at hx
    rcases hx with rfl | hx | hx
    · have := (lexCmp_eq_zero (codes x.name) (codes x.name)).2 rfl
      rw [if_neg (by omega), if_neg (by omega)]
    · have := h3 x hx
      rw [if_neg (by omega), if_pos this, ihl h1 hx]
    · have := h4 x hx
      have := lexCmp_neg (codes z.name) (codes x.name)
      rw [if_pos (by omega), ihr h2 hx]

/-- Names occur once. -/
theorem sorted_unique {t : CmdTree π} (hs : t.Sorted) {x y : CmdEntry π} (hx : x ∈ t.entries) (hy : y ∈ t.entries)
    (h : fold x.name = fold y.name) : x = y := by
  have hc := codes_inj.2 h
  induction t with
  | leaf => simp [CmdTree.entries] at hx
  | node z l r ihl ihr =>
    obtain ⟨h1, h2, h3, h4⟩ := hs
    simp only [CmdTree.entries, List.mem_cons, List.mem_append] at hx hy
    have irr : ∀ a : List Nat, ¬ lexCmp a a < 0 := fun a => by have := (lexCmp_eq_zero a a).2 rfl; omega
    rcases hx with rfl | hx | hx <;> rcases hy with rfl | hy | hy
    · rfl
    · have := h3 y hy; rw [hc] at this; exact absurd this (irr _)
    · have := h4 y hy; rw [hc] at this; exact absurd this (irr _)
    · have := h3 x hx; rw [hc] at this; exact absurd this (irr _)
    · exact ihl h1 hx hy
    · exfalso
      have a := h3 x hx
      have b := h4 y hy
      have := lexCmp_trans_lt a (Int.le_of_lt b)
      rw [hc] at this; exact irr _ this
    · have := h4 x hx; rw [hc] at this; exact absurd this (irr _)
    · exfalso
      have a := h4 x hx
      have b := h3 y hy
      have := lexCmp_trans_lt b (Int.le_of_lt a)
      rw [hc] at this; exact irr _ this
    · exact ihr h2 hx hy

theorem sorted_nodup {t : CmdTree π} (hs : t.Sorted) : t.entries.Pairwise (fun x y => fold x.name ≠ fold y.name) := by
  induction t with
  | leaf => exact .nil
  | node z l r ihl ihr =>
    obtain ⟨h1, h2, h3, h4⟩ := hs
    have irr : ∀ a : List Nat, ¬ lexCmp a a < 0 := fun a => by have := (lexCmp_eq_zero a a).2 rfl; omega
    rw [CmdTree.entries, List.pairwise_cons, List.pairwise_append]
    refine ⟨?_, ihl h1, ihr h2, ?_⟩
    · intro y hy h
      have hc := codes_inj.2 h
      rcases List.mem_append.1 hy with hy | hy
      · have := h3 y hy; rw [hc] at this; exact irr _ this
      · have := h4 y hy; rw [hc] at this; exact irr _ this
    · intro x hx y hy h
      have hc := codes_inj.2 h
      have := lexCmp_trans_lt (h3 x hx) (Int.le_of_lt (h4 y hy))
      rw [hc] at this; exact irr _ this

theorem putSeed_sorted (a : List (CmdEntry π)) (b t : Nat) (tree : CmdTree π) (h : tree.Sorted) : (putSeed a b t tree).Sorted := by
  fun_induction putSeed a b t tree with
  | case1 => exact h
  | case2 b t tree m hm ih1 _ ih2 =>
    refine ih2 (ih1 ?_)
    split
    · exact sorted_add h
    · exact h

theorem putSeed_keeps (a : List (CmdEntry π)) (b t : Nat) (tree : CmdTree π) {e : CmdEntry π} (h : e ∈ tree.entries) :
    e ∈ (putSeed a b t tree).entries := by
  fun_induction putSeed a b t tree with
  | case1 => exact h
  | case2 b t tree m hm ih1 _ ih2 =>
    refine ih2 (ih1 ?_)
    split
    · exact mem_add h
    · exact h

theorem putSeed_of (a : List (CmdEntry π)) (b t : Nat) (tree : CmdTree π) {e : CmdEntry π} (h : e ∈ (putSeed a b t tree).entries) :
    e ∈ tree.entries ∨ e ∈ a := by
  fun_induction putSeed a b t tree with
  | case1 => exact .inl h
  | case2 b t tree m hm ih1 _ ih2 =>
    rcases ih2 h with h | h
    · rcases ih1 h with h | h
      · split at h
        · next x hx =>
          rcases mem_add_of h with rfl | h
          · exact .inr (List.mem_of_getElem? hx)
          · exact .inl h
        · exact .inl h
      · exact .inr h
    · exact .inr h

/-- Every entry gets a place, if names occur once. -/
theorem putSeed_all (a : List (CmdEntry π)) (hd : a.Pairwise (fun x y => fold x.name ≠ fold y.name)) (b t : Nat) (tree : CmdTree π)
    (htree : ∀ x ∈ tree.entries, x ∈ a) (i : Nat) (h1 : b ≤ i) (h2 : i + 1 < t) (e : CmdEntry π) (he : a[i]? = some e) :
    e ∈ (putSeed a b t tree).entries := by
  fun_induction putSeed a b t tree with
  | case1 b t tree m hm => omega
  | case2 b t tree m hm ih1 _ ih2 =>
    have hd' : ∀ x ∈ a, fold x.name = fold e.name → x = e := by
      intro x hx hn
      obtain ⟨j, hj, hj'⟩ := List.getElem_of_mem hx
      obtain ⟨hi, hi'⟩ := List.getElem?_eq_some_iff.1 he
      rcases Nat.lt_trichotomy i j with h | h | h
      · exact absurd (by rw [hi', hj']; exact hn.symm) (List.pairwise_iff_getElem.1 hd i j hi hj h)
      · subst h; rw [← hj', ← hi']
      · exact absurd (by rw [hi', hj']; exact hn) (List.pairwise_iff_getElem.1 hd j i hj hi h)
    have hsub : ∀ x ∈ (match a[m - 1]? with | some e => tree.add e | none => tree).entries, x ∈ a := by
      intro x hx
      split at hx
      · next z hz =>
        rcases mem_add_of hx with rfl | hx
        · exact List.mem_of_getElem? hz
        · exact htree x hx
      · exact htree x hx
    have hsub2 : ∀ x ∈ (putSeed a b m (match a[m - 1]? with | some e => tree.add e | none => tree)).entries, x ∈ a := by
      intro x hx
      rcases putSeed_of a _ _ _ hx with h | h
      · exact hsub x h
      · exact h
    rcases Nat.lt_trichotomy (i + 1) m with h | h | h
    · exact putSeed_keeps a m t _ (ih1 hsub h1 h)
    · refine putSeed_keeps a m t _ (putSeed_keeps a b m _ ?_)
      have : a[m - 1]? = some e := by rw [← h]; simpa using he
      rw [this]
      by_cases hin : e ∈ tree.entries
      · exact mem_add hin
      · refine mem_add_new (fun x hx hn => hin ?_)
        have := hd' x (htree x hx) hn
        rwa [← this]
    · exact ih2 hsub2 (by omega) h2

theorem consistent_names (l : List (CmdEntry π)) : Consistent (fun x y => stricmp x.name y.name) l :=
  consistent_of_signLex (enc := fun x : CmdEntry π => codes x.name) (fun a _ b _ => by
    refine ⟨?_, ?_⟩
    · rfl
    · exact lexCmp_eq_zero _ _)

theorem mapInfo_sorted (lc : LibC) (a : List (CmdEntry π)) : (mapInfo lc a).Sorted := by
  unfold mapInfo
  simp only
  split
  · exact putSeed_sorted _ _ _ _ trivial
  · trivial

theorem mapInfo_mem (lc : LibC) (a : List (CmdEntry π)) (hd : a.Pairwise (fun x y => fold x.name ≠ fold y.name))
    (hn : a.length ≠ 2 ∧ a.length ≠ 3) (e : CmdEntry π) : e ∈ (mapInfo lc a).entries ↔ e ∈ a := by
  have hp := lc.qsort_perm (fun x y : CmdEntry π => stricmp x.name y.name) a (consistent_names a)
  unfold mapInfo
  simp only
  rw [if_pos (by omega)]
  constructor
  · intro h
    rcases putSeed_of _ _ _ _ h with h | h
    · simp [CmdTree.entries] at h
    · exact hp.mem_iff.1 h
  · intro h
    obtain ⟨i, hi, hi'⟩ := List.getElem_of_mem (hp.mem_iff.2 h)
    refine putSeed_all _ ?_ 0 _ _ (by simp [CmdTree.entries]) i (Nat.zero_le _) ?_ e ?_
    · exact hp.symm.pairwise hd (fun h => h.symm)
    · have := hp.length_eq; omega
    · rw [List.getElem?_eq_getElem hi, hi']

end PBat

namespace PBat
open Spec

variable {π : Type}

theorem codes_append (a b : List Char) : codes (a ++ b) = codes a ++ codes b := by simp [codes]

theorem codes_length (a : List Char) : (codes a).length = a.length := by simp [codes]

theorem cmdDelim_iff (c : Char) : cmdDelim c = true ↔ c ∈ " ,;\n\t/".toList := by
  simp [cmdDelim]
  grind

/-- A line begins with a name. -/
theorem begins_iff (line name : List Char) :
    lexCmp ((codes line).take name.length) (codes name) = 0 ↔ ∃ w rest, line = w ++ rest ∧ fold w = fold name := by
  rw [lexCmp_eq_zero]
  constructor
  · intro h
    refine ⟨line.take name.length, line.drop name.length, (List.take_append_drop _ _).symm, ?_⟩
    rw [← codes_inj, ← h]
    simp [codes, List.map_take]
  · rintro ⟨w, rest, rfl, h⟩
    have h := codes_inj.2 h
    have hl : w.length = name.length := by have := congrArg List.length h; simpa [codes_length] using this
    rw [codes_append, ← hl, ← codes_length w, List.take_left, h]

theorem fold_length {a b : List Char} (h : fold a = fold b) : a.length = b.length := by
  have := congrArg List.length h
  simpa [fold] using this

/-- The tests made at a node whose name begins the line. -/
theorem calls_at {line : List Char} {x : CmdEntry π} (hr : Registered x)
    (hc : lexCmp ((codes line).take x.name.length) (codes x.name) = 0) :
    Calls line x ↔ x.limit = 0 ∨ line[x.limit]? = none ∨ ∃ d, line[x.limit]? = some d ∧ cmdDelim d = true := by
  obtain ⟨w, rest, rfl, hw⟩ := (begins_iff _ _).1 hc
  have hl := fold_length hw
  by_cases h0 : x.limit = 0
  · simp only [h0, true_or, iff_true]
    exact ⟨w, rest, rfl, hw, .inl h0⟩
  · have hlim : x.limit = w.length := by rcases hr with h | h <;> omega
    have hget : (w ++ rest)[x.limit]? = rest.head? := by
      rw [hlim, List.getElem?_append_right (Nat.le_refl _), Nat.sub_self, List.head?_eq_getElem?]
    rw [hget]
    constructor
    · rintro ⟨w', rest', he, hw', h | h⟩
      · exact absurd h h0
      · have : w' = w := by
          have := List.append_inj he (by have := fold_length hw'; omega)
          exact this.1.symm
        subst this
        rw [List.append_cancel_left_eq] at he
        subst he
        cases hh : rest.head? with
        | none => simp
        | some d => exact .inr (.inr ⟨d, rfl, (cmdDelim_iff d).2 (h d hh)⟩)
    · rintro (h | h | ⟨d, h, hd⟩)
      · exact absurd h h0
      · exact ⟨w, rest, rfl, hw, .inr (by intro c hc; rw [h] at hc; cases hc)⟩
      · exact ⟨w, rest, rfl, hw, .inr (by intro c hc; rw [h] at hc; cases hc; exact (cmdDelim_iff d).1 hd)⟩

/-- One step of a lookup. -/
theorem lookup_step {line : List Char} {x : CmdEntry π} (hr : Registered x) (l r : CmdTree π) :
    (Calls line x ∧ (CmdTree.node x l r).lookup line = .ok (some x)) ∨
    (¬ Calls line x ∧ lexCmp (codes line) (codes x.name) > 0 ∧ (CmdTree.node x l r).lookup line = r.lookup line) ∨
    (¬ Calls line x ∧ lexCmp (codes line) (codes x.name) < 0 ∧ (CmdTree.node x l r).lookup line = l.lookup line) := by
  have hcl := codes_length x.name
  rw [CmdTree.lookup]
  have hnc : lexCmp ((codes line).take x.name.length) (codes x.name) ≠ 0 → ¬ Calls line x := by
    rintro h ⟨w, rest, e, hw, -⟩
    exact h ((begins_iff _ _).2 ⟨w, rest, e, hw⟩)
  split
  · next h =>
    rw [← hcl] at h
    exact .inr (.inl ⟨hnc (by rw [← hcl]; omega), lexCmp_take_gt h, rfl⟩)
  · split
    · next h =>
      rw [← hcl] at h
      exact .inr (.inr ⟨hnc (by rw [← hcl]; omega), lexCmp_take_lt h, rfl⟩)
    · have hc : lexCmp ((codes line).take x.name.length) (codes x.name) = 0 := by omega
      have hca := calls_at hr hc
      obtain ⟨w, rest, e, hw⟩ := (begins_iff _ _).1 hc
      split
      · next h => exact .inl ⟨hca.2 (.inl h), rfl⟩
      · next h0 =>
        have hlim : x.limit = x.name.length := by rcases hr with h | h <;> omega
        have hlw := fold_length hw
        have hll : ¬ line.length < x.limit := by rw [e]; simp; omega
        rw [if_neg hll]
        split
        · next h => exact .inl ⟨hca.2 (.inr (.inl h)), rfl⟩
        · next d h =>
          split
          · next hd => exact .inl ⟨hca.2 (.inr (.inr ⟨d, h, hd⟩)), rfl⟩
          · next hd =>
            have hncall : ¬ Calls line x := by rw [hca]; grind
            have hgt : lexCmp (codes line) (codes x.name) > 0 := by
              rw [e, codes_append, codes_inj.2 hw, lexCmp_append, if_neg]
              · omega
              · intro hh
                have : rest = [] := by simpa [codes] using hh
                subst this
                rw [e, List.getElem?_eq_none (by simp; omega)] at h
                cases h
            unfold stricmp
            rw [if_pos hgt]
            exact .inr (.inl ⟨hncall, hgt, rfl⟩)

/-- What is found is in the table and is called by the line; nothing undefined happens. -/
theorem lookup_sound (line : List Char) (t : CmdTree π) (hr : ∀ x ∈ t.entries, Registered x) :
    ∃ o, t.lookup line = .ok o ∧ ∀ x, o = some x → x ∈ t.entries ∧ Calls line x := by
  induction t with
  | leaf => exact ⟨none, rfl, by simp⟩
  | node z l r ihl ihr =>
    have hl := ihl (fun x hx => hr x (by simp [CmdTree.entries, hx]))
    have hr' := ihr (fun x hx => hr x (by simp [CmdTree.entries, hx]))
    rcases lookup_step (line := line) (hr z (by simp [CmdTree.entries])) l r with ⟨h1, h2⟩ | ⟨-, -, h2⟩ | ⟨-, -, h2⟩
    · exact ⟨some z, h2, by rintro x ⟨⟩; exact ⟨by simp [CmdTree.entries], h1⟩⟩
    · obtain ⟨o, ho, hp⟩ := hr'
      exact ⟨o, h2.trans ho, fun x hx => ⟨by simp [CmdTree.entries, (hp x hx).1], (hp x hx).2⟩⟩
    · obtain ⟨o, ho, hp⟩ := hl
      exact ⟨o, h2.trans ho, fun x hx => ⟨by simp [CmdTree.entries, (hp x hx).1], (hp x hx).2⟩⟩

/-- The only command called by a line is found, if names that continue its name come after the line. -/
theorem lookup_find {line : List Char} {t : CmdTree π} (hs : t.Sorted) (hr : ∀ x ∈ t.entries, Registered x) {x : CmdEntry π}
    (hx : x ∈ t.entries) (hc : Calls line x) (hu : ∀ y ∈ t.entries, Calls line y → y = x)
    (hb : ∀ y ∈ t.entries, codes x.name <+: codes y.name → y ≠ x → lexCmp (codes line) (codes y.name) < 0) :
    t.lookup line = .ok (some x) := by
  have hpre : codes x.name <+: codes line := by
    obtain ⟨w, rest, rfl, hw, -⟩ := hc
    rw [codes_append, codes_inj.2 hw]
    exact List.prefix_append _ _
  induction t with
  | leaf => simp [CmdTree.entries] at hx
  | node z l r ihl ihr =>
    obtain ⟨h1, h2, h3, h4⟩ := hs
    have hzmem : z ∈ (CmdTree.node z l r).entries := by simp [CmdTree.entries]
    have hlm : ∀ y ∈ l.entries, y ∈ (CmdTree.node z l r).entries := fun y hy => by simp [CmdTree.entries, hy]
    have hrm : ∀ y ∈ r.entries, y ∈ (CmdTree.node z l r).entries := fun y hy => by simp [CmdTree.entries, hy]
    rcases lookup_step (line := line) (hr z hzmem) l r with ⟨k1, k2⟩ | ⟨k0, k1, k2⟩ | ⟨k0, k1, k2⟩
    · rw [k2, hu z hzmem k1]
    · rw [k2]
      have hxr : x ∈ r.entries := by
        simp only [CmdTree.entries, List.mem_cons, List.mem_append] at hx
        rcases hx with rfl | hx | hx
        · exact absurd hc k0
        · exfalso
          have a := h3 x hx
          have b : lexCmp (codes z.name) (codes line) ≤ 0 := by
            have := lexCmp_neg (codes line) (codes z.name)
            omega
          have hp := lexCmp_between hpre (Int.le_of_lt a) b
          have := hb z hzmem hp (by rintro rfl; have := (lexCmp_eq_zero (codes z.name) (codes z.name)).2 rfl; omega)
          omega
        · exact hx
      exact ihr h2 (fun y hy => hr y (hrm y hy)) hxr (fun y hy => hu y (hrm y hy)) (fun y hy => hb y (hrm y hy))
    · rw [k2]
      have hxl : x ∈ l.entries := by
        simp only [CmdTree.entries, List.mem_cons, List.mem_append] at hx
        rcases hx with rfl | hx | hx
        · exact absurd hc k0
        · exact hx
        · exfalso
          have a := h4 x hx
          have b := lexCmp_prefix_le hpre
          have c := lexCmp_trans_lt (lexCmp_trans_lt k1 (Int.le_of_lt a)) b
          have := (lexCmp_eq_zero (codes line) (codes line)).2 rfl
          omega
      exact ihl h1 (fun y hy => hr y (hlm y hy)) hxl (fun y hy => hu y (hlm y hy)) (fun y hy => hb y (hlm y hy))

end PBat
