import Verif.Lemmas.CmdList
/-
C21: the table of commands.
-/
namespace PBat
open Spec

variable {π : Type}

/-- The table after a history. -/
def tableAfter (lc : LibC) (t : CmdTree π) : List (TableOp π) → CmdTree π
  | [] => t
  | .add e :: ops => tableAfter lc (t.add e) ops
  | .rebuild :: ops => tableAfter lc (reMap lc t) ops

/-- Distinct names. -/
def Distinct (T : List (CmdEntry π)) : Prop := T.Pairwise (fun x y => fold x.name ≠ fold y.name)

theorem distinct_nodup {T : List (CmdEntry π)} (h : Distinct T) : T.Nodup := by
  refine List.Pairwise.imp ?_ h
  rintro a b hab rfl
  exact hab rfl

theorem tableAfter_spec (lc : LibC) (ops : List (TableOp π)) : ∀ (t : CmdTree π) (T : List (CmdEntry π)), t.Sorted → Distinct T →
    (∀ e, e ∈ t.entries ↔ e ∈ T) → NotSmall T ops →
    (tableAfter lc t ops).Sorted ∧ (∀ e, e ∈ (tableAfter lc t ops).entries ↔ e ∈ afterOps T ops) ∧ Distinct (afterOps T ops) := by
  induction ops with
  | nil => intro t T hs hd hm _; exact ⟨hs, hm, hd⟩
  | cons op ops ih =>
    intro t T hs hd hm hn
    cases op with
    | add e =>
      refine ih (t.add e) (addCmd T e) (sorted_add hs) ?_ ?_ hn
      · unfold addCmd
        split
        · exact hd
        · next h =>
          refine List.pairwise_append.2 ⟨hd, List.pairwise_singleton _ _, ?_⟩
          intro a ha b hb hab
          rw [List.mem_singleton] at hb
          subst hb
          exact h ⟨a, ha, hab⟩
      · intro x
        unfold addCmd
        split
        · next h =>
          obtain ⟨y, hy, hn⟩ := h
          rw [add_old hs ⟨y, (hm y).2 hy, hn⟩]
          exact hm x
        · next h =>
          rw [List.mem_append, List.mem_singleton, ← hm]
          constructor
          · intro hx
            rcases mem_add_of hx with h | h
            · exact .inr h
            · exact .inl h
          · rintro (hx | rfl)
            · exact mem_add hx
            · exact mem_add_new (fun y hy hyn => h ⟨y, (hm y).1 hy, hyn⟩)
    | rebuild =>
      have hlen : t.entries.length = T.length :=
        ((List.perm_ext_iff_of_nodup (distinct_nodup (sorted_nodup hs)) (distinct_nodup hd)).2 hm).length_eq
      refine ih (reMap lc t) T (mapInfo_sorted lc _) hd ?_ hn.2.2
      intro e
      unfold reMap
      rw [mapInfo_mem lc _ (sorted_nodup hs) ⟨by rw [hlen]; exact hn.1, by rw [hlen]; exact hn.2.1⟩]
      exact hm e

theorem tableAfter_init (lc : LibC) (init : List (CmdEntry π)) (hd : Distinct init) (hn : NotSmall init (.rebuild :: ops)) :
    (tableAfter lc (mapInfo lc init) ops).Sorted ∧
    (∀ e, e ∈ (tableAfter lc (mapInfo lc init) ops).entries ↔ e ∈ afterOps init ops) ∧ Distinct (afterOps init ops) :=
  tableAfter_spec lc ops _ init (mapInfo_sorted lc init) hd (mapInfo_mem lc init hd ⟨hn.1, hn.2.1⟩) hn.2.2

/-- Commands begin with the initial ones; then commands are added and the table is rebuilt, in any order.  A line that begins
with the name of a command, in any case, finds this command, provided that names which continue this name (if any) come
after the line in alphabetical order, and that names which begin this one are whole words only. -/
theorem C21_call_partial (lc : LibC) (init : List (CmdEntry π)) (ops : List (TableOp π)) (hd : Distinct init)
    (hn : NotSmall init (.rebuild :: ops)) (hreg : ∀ e ∈ afterOps init ops, Registered e)
    (e : CmdEntry π) (he : e ∈ afterOps init ops) (w rest : List Char) (hw : fold w = fold e.name)
    (hend : e.limit = 0 ∨ CmdEnd rest)
    (hlonger : ∀ y ∈ afterOps init ops, ∀ c s, fold y.name = fold e.name ++ c :: s →
      ∀ d, rest.head? = some d → d.toLower.toNat < c.toNat)
    (hshorter : ∀ y ∈ afterOps init ops, ∀ c s, fold e.name = fold y.name ++ c :: s →
      y.limit ≠ 0 ∧ c ∉ " ,;\n\t/".toList) :
    (tableAfter lc (mapInfo lc init) ops).lookup (w ++ rest) = .ok (some e) := by
  obtain ⟨hs, hm, hdist⟩ := tableAfter_init (ops := ops) lc init hd hn
  have hfold : ∀ a b : List Char, fold (a ++ b) = fold a ++ fold b := by intro a b; simp [fold]
  refine lookup_find hs (fun x hx => hreg x ((hm x).1 hx)) ((hm e).2 he) ⟨w, rest, rfl, hw, hend⟩ ?_ ?_
  · rintro y hy ⟨w', rest', heq, hw', hend'⟩
    have hy' := (hm y).1 hy
    have h1 := congrArg fold heq
    rw [hfold, hfold, hw, hw'] at h1
    rcases List.append_eq_append_iff.1 h1 with ⟨s, h2, h3⟩ | ⟨s, h2, h3⟩
    · cases s with
      | nil => exact sorted_unique hs hy ((hm e).2 he) (by simpa using h2)
      | cons c s =>
        exfalso
        cases rest with
        | nil => simp [fold] at h3
        | cons d rest =>
          have := hlonger y hy' c s h2 d rfl
          simp only [fold, List.map_cons, List.cons_append, List.cons.injEq] at h3
          rw [h3.1] at this
          omega
    · cases s with
      | nil => exact sorted_unique hs hy ((hm e).2 he) (by simpa using h2.symm)
      | cons c s =>
        exfalso
        obtain ⟨k1, k2⟩ := hshorter y hy' c s h2
        have hce := hend'.resolve_left k1
        cases rest' with
        | nil => simp [fold] at h3
        | cons d rest' =>
          have hdm := hce d rfl
          simp only [fold, List.map_cons, List.cons_append, List.cons.injEq] at h3
          have hlow : ∀ d ∈ " ,;\n\t/".toList, d.toLower = d := by decide
          have := hlow d hdm
          rw [this] at h3
          exact k2 (h3.1 ▸ hdm)
  · intro y hy hp hne
    have hy' := (hm y).1 hy
    rw [codes_eq, codes_eq, List.prefix_map_iff_of_injective (fun a b h => toNat_inj h)] at hp
    obtain ⟨s, hs'⟩ := hp
    cases s with
    | nil => exact absurd (sorted_unique hs hy ((hm e).2 he) (by simpa using hs'.symm)) hne
    | cons c s =>
      rw [codes_eq, codes_eq, ← hs', hfold, hw, List.map_append, List.map_append]
      have key : ∀ (p x y : List Nat), lexCmp (p ++ x) (p ++ y) = lexCmp x y := by
        intro p x y
        induction p with
        | nil => rfl
        | cons a p ih => simp [lexCmp, ih]
      rw [key]
      cases rest with
      | nil => simp [fold, lexCmp]
      | cons d rest =>
        have := hlonger y hy' c s hs'.symm d rfl
        simp only [fold, List.map_cons, lexCmp]
        rw [if_pos this]
        omega

/-- Whatever the history, a command found is one that was added first under its name, and the line calls it; if the line
calls none, none is found; looking up has no undefined behaviour and ends. -/
theorem C21_sound (lc : LibC) (init : List (CmdEntry π)) (ops : List (TableOp π)) (hd : Distinct init)
    (hn : NotSmall init (.rebuild :: ops)) (hreg : ∀ e ∈ afterOps init ops, Registered e) (line : List Char) :
    ∃ o, (tableAfter lc (mapInfo lc init) ops).lookup line = .ok o ∧
      ∀ e, o = some e → e ∈ afterOps init ops ∧ Calls line e := by
  obtain ⟨hs, hm, -⟩ := tableAfter_init (ops := ops) lc init hd hn
  obtain ⟨o, h1, h2⟩ := lookup_sound line (tableAfter lc (mapInfo lc init) ops) (fun x hx => hreg x ((hm x).1 hx))
  exact ⟨o, h1, fun e he => ⟨(hm e).1 (h2 e he).1, (h2 e he).2⟩⟩

/-- Tables whose names are made of letters and other characters above `;`, all ending with the word. -/
def Words (T : List (CmdEntry π)) : Prop := ∀ e ∈ T, e.limit = e.name.length ∧ e.name ≠ [] ∧ ∀ c ∈ fold e.name, ';'.toNat < c.toNat

/-- In such tables the history does not matter at all: a line finds the command whose name is its first word. -/
theorem C21_words (lc : LibC) (init : List (CmdEntry π)) (ops : List (TableOp π)) (hd : Distinct init)
    (hn : NotSmall init (.rebuild :: ops)) (hw : Words (afterOps init ops)) (line : List Char) (e : CmdEntry π) :
    (tableAfter lc (mapInfo lc init) ops).lookup line = .ok (some e) ↔ e ∈ afterOps init ops ∧ Calls line e := by
  have hreg : ∀ e ∈ afterOps init ops, Registered e := fun e he => .inr (hw e he).1
  constructor
  · intro h
    obtain ⟨o, h1, h2⟩ := C21_sound lc init ops hd hn hreg line
    rw [h] at h1
    cases h1
    exact h2 e rfl
  · rintro ⟨he, w, rest, rfl, hf, hend⟩
    have hlim : e.limit ≠ 0 := by
      have := hw e he
      have := List.length_pos_iff.2 this.2.1
      omega
    have hce := hend.resolve_left hlim
    have hsmall : ∀ d ∈ " ,;\n\t/".toList, d.toLower.toNat ≤ ';'.toNat := by decide
    refine C21_call_partial lc init ops hd hn hreg e he w rest hf hend ?_ ?_
    · intro y hy c s hc d hd
      have h1 := (hw y hy).2.2 c (by rw [hc]; simp)
      have h2 := hsmall d (hce d hd)
      omega
    · intro y hy c s hc
      have h0 := hw y hy
      have := List.length_pos_iff.2 h0.2.1
      refine ⟨by omega, fun hcm => ?_⟩
      have h1 := (hw e he).2.2 c (by rw [hc]; simp)
      have h2 : ∀ d ∈ " ,;\n\t/".toList, d.toNat ≤ ';'.toNat := by decide
      have := h2 c hcm
      omega

/-- The commands of pBat: each is found by every line that calls it, whatever the implementation of `qsort`; except GOTO
followed by a semicolon (CALL followed by a semicolon is found too, by `C21_call_semicolon`). -/
theorem C21_builtin_partial (lc : LibC) (e : CmdEntry String) (he : e ∈ defaultCmds) (w rest : List Char)
    (hw : fold w = fold e.name) (hend : e.limit = 0 ∨ CmdEnd rest)
    (hsemi : rest.head? = some ';' → e.name ≠ "GOTO".toList ∧ e.name ≠ "CALL".toList) :
    (mapInfo lc defaultCmds).lookup (w ++ rest) = .ok (some e) := by
  have hcheck : ∀ e ∈ defaultCmds, ∀ y ∈ defaultCmds, (fold e.name).isPrefixOf (fold y.name) = true →
      fold y.name = fold e.name ∨ (e.limit ≠ 0 ∧ ∀ c, (fold y.name)[e.name.length]? = some c →
        c ∉ " ,;\n\t/".toList ∧ (';'.toNat < c.toNat ∨ (e.name = "GOTO".toList ∨ e.name = "CALL".toList) ∧ c = ':')) := by
    have h : defaultCmds.all (fun e => defaultCmds.all (fun y => !(fold e.name).isPrefixOf (fold y.name) ||
        (fold y.name == fold e.name || (e.limit != 0 && match (fold y.name)[e.name.length]? with
          | none => true
          | some c => !(" ,;\n\t/".toList.contains c) && (decide (';'.toNat < c.toNat) ||
            (e.name == "GOTO".toList || e.name == "CALL".toList) && c == ':'))))) = true := by decide +kernel
    intro e he y hy hp
    have := List.all_eq_true.1 (List.all_eq_true.1 h e he) y hy
    rw [hp] at this
    simp only [Bool.not_true, Bool.false_or, Bool.or_eq_true, beq_iff_eq, Bool.and_eq_true, bne_iff_ne, ne_eq] at this
    rcases this with h | ⟨h1, h2⟩
    · exact .inl h
    · refine .inr ⟨h1, fun c hc => ?_⟩
      rw [hc] at h2
      simp only [Bool.and_eq_true, Bool.not_eq_true', Bool.or_eq_true, decide_eq_true_eq, beq_iff_eq] at h2
      exact ⟨by simpa using h2.1, h2.2⟩
  have hget : ∀ (a : List Char) (n : List Char) (c : Char) (s : List Char), fold a = fold n ++ c :: s →
      (fold n).isPrefixOf (fold a) = true ∧ (fold a)[n.length]? = some c ∧ fold a ≠ fold n := by
    intro a n c s h
    have hl : (fold n).length = n.length := by simp [fold]
    refine ⟨?_, ?_, ?_⟩
    · rw [List.isPrefixOf_iff_prefix, h]; exact List.prefix_append _ _
    · rw [h, ← hl, List.getElem?_append_right (Nat.le_refl _), Nat.sub_self]; rfl
    · rw [h]; simp
  refine C21_call_partial lc defaultCmds [] (by unfold Distinct; decide +kernel) ⟨by decide, by decide, trivial⟩ ?_ e he w rest hw hend ?_ ?_
  · have h : defaultCmds.all (fun e => e.limit == 0 || e.limit == e.name.length) = true := by decide +kernel
    intro x hx
    have := List.all_eq_true.1 h x hx
    simpa [Registered] using this
  · intro y hy c s hc d hd
    obtain ⟨k1, k2, k3⟩ := hget _ _ c s hc
    have := (hcheck e he y hy k1).resolve_left k3
    have hce := hend.resolve_left this.1
    have hdm := hce d hd
    rcases (this.2 c k2).2 with h | ⟨h, rfl⟩
    · have hsmall : ∀ d ∈ " ,;\n\t/".toList, d.toLower.toNat ≤ ';'.toNat := by decide
      have := hsmall d hdm
      omega
    · have hns : d ≠ ';' := by
        rintro rfl
        have := hsemi hd
        grind
      have hsmall : ∀ d ∈ " ,;\n\t/".toList, d ≠ ';' → d.toLower.toNat < ':'.toNat := by decide
      exact hsmall d hdm hns
  · intro y hy c s hc
    obtain ⟨k1, k2, k3⟩ := hget _ _ c s hc
    have := (hcheck y hy e he k1).resolve_left k3
    exact ⟨this.1, (this.2 c k2).1⟩

/-- The table of pBat does not depend on the implementation of `qsort`. -/
theorem default_table (lc : LibC) :
    mapInfo lc defaultCmds = putSeed (sortBy (fun x y => stricmp x.name y.name) defaultCmds) 0 (defaultCmds.length + 1) .leaf := by
  have hc := consistent_names defaultCmds
  have hp := (lc.qsort_perm _ defaultCmds hc).trans (sortBy_perm (fun x y => stricmp x.name y.name) defaultCmds).symm
  have h1 := lc.qsort_sorted _ defaultCmds hc
  have h2 := sortBy_sorted _ defaultCmds hc
  have : lc.qsort (fun x y => stricmp x.name y.name) defaultCmds = sortBy (fun x y => stricmp x.name y.name) defaultCmds := by
    refine hp.eq_of_pairwise ?_ h1 h2
    intro a b ha hb hab hba
    have hd : Distinct defaultCmds := by unfold Distinct; decide +kernel
    have hsym : stricmp a.name b.name = 0 := by
      unfold stricmp at *
      have := lexCmp_neg (codes a.name) (codes b.name)
      omega
    have hn := codes_inj.1 ((lexCmp_eq_zero _ _).1 hsym)
    have hin : ∀ x ∈ lc.qsort (fun x y => stricmp x.name y.name) defaultCmds, x ∈ defaultCmds := fun x hx =>
      (lc.qsort_perm _ defaultCmds hc).mem_iff.1 hx
    have hinb : b ∈ defaultCmds := (sortBy_perm _ defaultCmds).mem_iff.1 hb
    have hs := mapInfo_sorted lc defaultCmds
    have hm := mapInfo_mem lc defaultCmds hd ⟨by decide, by decide⟩
    exact sorted_unique hs ((hm a).2 (hin a ha)) ((hm b).2 hinb) hn
  unfold mapInfo
  simp only [this]
  rw [if_pos (by decide)]

/-- The claim fails for `GOTO;label`: GOTO is not found. -/
theorem C21_goto_semicolon (lc : LibC) : (mapInfo lc defaultCmds).lookup "goto;label".toList = .ok none := by
  rw [default_table]
  decide +kernel

/-- `CALL;file` is found. -/
theorem C21_call_semicolon (lc : LibC) : ∃ e, (mapInfo lc defaultCmds).lookup "call;file".toList = .ok (some e) ∧
    e.name = "CALL".toList := by
  rw [default_table]
  exact ⟨⟨"CALL".toList, 4, "pBat_CmdCall"⟩, by decide +kernel, rfl⟩

/-- The claim fails in general: with names that continue other ones, the order of additions matters. -/
theorem C21_order_matters : ∃ (a b : CmdEntry Unit) (line : List Char), Registered a ∧ Registered b ∧ fold a.name ≠ fold b.name ∧
    ((CmdTree.leaf.add a).add b).lookup line = .ok (some a) ∧ ((CmdTree.leaf.add b).add a).lookup line = .ok none :=
  ⟨⟨"b".toList, 1, ()⟩, ⟨"b1".toList, 2, ()⟩, "b;x".toList, .inr rfl, .inr rfl, by decide, by decide +kernel, by decide +kernel⟩

/-- Rebuilding a table of two or three commands loses them all. -/
theorem C21_small_rebuild_empty (lc : LibC) (t : CmdTree π) (h : t.entries.length = 2 ∨ t.entries.length = 3) :
    reMap lc t = .leaf := by
  unfold reMap mapInfo
  simp only
  rw [if_neg]
  rcases h with h | h <;> rw [h] <;> simp

/-- Redefining SETLOCAL redefines SET instead; then `set x` reads past the end of the line. -/
theorem C21_redefine_hits_other (lc : LibC) : ∃ t : CmdTree String,
    defCmd lc true "SETLOCAL".toList "macro" (mapInfo lc defaultCmds) = .ok (t, true) ∧
    t.lookup "set x".toList = .ub := by
  rw [default_table]
  refine ⟨((putSeed (sortBy (fun x y => stricmp x.name y.name) defaultCmds) 0 (defaultCmds.length + 1) .leaf).replace
    ⟨"SETLOCAL".toList, 8, "macro"⟩).get (by decide +kernel), ?_, by decide +kernel⟩
  unfold defCmd
  have : (putSeed (sortBy (fun x y => stricmp x.name y.name) defaultCmds) 0 (defaultCmds.length + 1) .leaf).lookup
      "SETLOCAL".toList = .ok (some ⟨"SETLOCAL".toList, 8, "pBat_CmdSetLocal"⟩) := by decide +kernel
  rw [this]
  simp only [Res.ok_bind, Option.isSome_some, if_true]
  split
  · next t' ht =>
    have : "SETLOCAL".toList.length = 8 := rfl
    simp only [this] at ht
    simp only [ht, Option.get_some]
    rfl
  · next hn =>
    exfalso
    revert hn
    decide +kernel

/-- A new macro in the table of pBat: found afterwards, in any case. -/
example (lc : LibC) (rest : List Char) (h : CmdEnd rest) :
    (tableAfter lc (mapInfo lc [⟨"cd".toList, 2, 1⟩, ⟨"md".toList, 2, 2⟩, ⟨"rd".toList, 2, 3⟩, ⟨"if".toList, 2, 4⟩])
      [.add ⟨"greet".toList, 5, 5⟩, .rebuild]).lookup ("Greet".toList ++ rest) = .ok (some ⟨"greet".toList, 5, 5⟩) :=
  (C21_words lc [⟨"cd".toList, 2, 1⟩, ⟨"md".toList, 2, 2⟩, ⟨"rd".toList, 2, 3⟩, ⟨"if".toList, 2, 4⟩]
    [.add ⟨"greet".toList, 5, 5⟩, .rebuild] (by unfold Distinct; decide +kernel)
    ⟨by decide, by decide, by decide +kernel, by decide +kernel, trivial⟩ (by unfold Words; decide +kernel) _ _).2 ⟨by decide +kernel, "Greet".toList, rest, rfl, by decide +kernel, .inr h⟩

/-- `echo.` is ECHO. -/
example (lc : LibC) (rest : List Char) :
    (mapInfo lc defaultCmds).lookup ("echo".toList ++ '.' :: rest) = .ok (some ⟨"ECHO".toList, 0, "pBat_CmdEcho"⟩) :=
  C21_builtin_partial lc _ (by decide +kernel) _ _ (by decide +kernel) (.inl rfl) (by simp)

end PBat
