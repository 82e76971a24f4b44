import Verif.Spec.Copy
import Verif.Props.C36
import Verif.Props.C52
import Verif.Props.C59
/-
C60: where COPY and MOVE put the files.
-/
namespace PBat
open Spec

/-- The flags after some items. -/
def copyState (fl : CopyFlags) (items : List CopyItem) : CopyFlags :=
  { fl with silence := fl.silence || decide (CopyItem.ask ∈ items), recursive := fl.recursive || decide (CopyItem.deep ∈ items),
            cat := fl.cat || decide (CopyItem.plus ∈ items) }

theorem fold_of_lower {t : List Char} {c : Char} {s : List Char} (h : fold t = c :: s) : ∃ c' s', t = c' :: s' ∧ c'.toLower = c ∧ fold s' = s := by
  cases t with
  | nil => simp [fold] at h
  | cons a t =>
    simp only [fold, List.map_cons, List.cons.injEq] at h
    exact ⟨a, t, rfl, h.1, h.2⟩

theorem toLower_minus {c : Char} : c.toLower = '-' ↔ c = '-' := by
  unfold Char.toLower
  constructor
  · intro h
    split at h
    · next hc =>
      exfalso
      have := congrArg Char.toNat h
      simp only [Char.toNat] at this
      have h1 := hc.1
      have h2 := hc.2
      simp [UInt32.le_iff_toNat_le] at h1 h2
      have h3 := congrArg Char.val h
      have h4 := congrArg UInt32.toNat h3
      simp at h4
      omega
    · exact h
  · rintro rfl; decide

/-- The attributes after some items. -/
def copyAttr (attr : BitVec 16) (items : List CopyItem) : BitVec 16 :=
  ((items.filterMap fun | .attrs l => some l | _ => none).getLast?.map flagsOf).getD attr

theorem copyAttr_cons (attr : BitVec 16) (l : List (Attr × Bool)) (items : List CopyItem) :
    copyAttr (flagsOf l) items = copyAttr attr (.attrs l :: items) := by
  unfold copyAttr
  simp only [List.filterMap_cons]
  rw [List.getLast?_cons]
  cases (items.filterMap fun | .attrs l => some l | _ => none).getLast? <;> simp

theorem item_ne {a b : CopyItem} : (a == b) = decide (a = b) := rfl

theorem copyParams_items (full : List Char → List Char) : ∀ (ps : List (List Char × CopyItem)) (fl : CopyFlags) (attr : BitVec 16) (files : List (List Char)),
    (∀ p ∈ ps, CopyText p.1 p.2) → (fl.move = true → CopyItem.plus ∉ ps.map (·.2)) →
    copyParams full (ps.map (·.1)) fl attr files =
      .args (copyState fl (ps.map (·.2))) (copyAttr attr (ps.map (·.2))) (files ++ (copyNames (ps.map (·.2))).map full)
  | [], fl, attr, files, _, _ => by simp [copyParams, copyState, copyAttr, copyNames]
  | (t, it) :: ps, fl, attr, files, h, hm => by
    have ih := fun fl' attr' files' (hmv : fl'.move = fl.move) => copyParams_items full ps fl' attr' files' (fun p hp => h p (by simp [hp]))
      (fun h' hp => hm (hmv ▸ h') (by rw [List.map_cons]; exact List.mem_cons_of_mem _ hp))
    have h0 := h (t, it) (by simp)
    simp only [List.map_cons] at *
    rw [copyParams]
    simp only [stricmp_zero]
    have hpre : prefixI "/A".toList t = true ↔ "/a".toList <+: fold t := by rw [prefixI_iff]; rfl
    rw [show fold "/Y".toList = ['/', 'y'] by decide, show fold "/-Y".toList = ['/', '-', 'y'] by decide, show fold "/R".toList = ['/', 'r'] by decide]
    generalize hit : it = it' at h0
    cases h0 with
    | quiet hf =>
      rw [if_pos (.inl hf.symm), if_neg]
      · refine Eq.trans (ih _ _ _ (by rfl)) ?_
        simp [copyState, copyAttr, copyNames, item_ne]
      · obtain ⟨c1, s1, rfl, -, h1⟩ := fold_of_lower hf
        obtain ⟨c2, s2, rfl, h2, -⟩ := fold_of_lower h1
        simp only [List.drop_succ_cons, List.drop_zero, List.head?_cons, Option.some.injEq]
        rintro rfl
        revert h2; decide
    | ask hf =>
      rw [if_pos (.inr hf.symm), if_pos]
      · refine Eq.trans (ih _ _ _ (by rfl)) ?_
        simp [copyState, copyAttr, copyNames, item_ne]
      · obtain ⟨c1, s1, rfl, -, h1⟩ := fold_of_lower hf
        obtain ⟨c2, s2, rfl, h2, -⟩ := fold_of_lower h1
        simp [toLower_minus.1 h2]
    | deep hf =>
      rw [if_neg (by rw [hf]; decide), if_neg (by rw [hpre, hf]; decide), if_pos (by rw [hf]; rfl)]
      refine Eq.trans (ih _ _ _ (by rfl)) ?_
      simp [copyState, copyAttr, copyNames, item_ne]
    | plus =>
      rw [if_neg (by decide), if_neg (by decide), if_neg (by decide), if_neg (by decide), if_pos (by decide), if_neg]
      · refine Eq.trans (ih _ _ _ (by rfl)) ?_
        simp [copyState, copyAttr, copyNames, item_ne]
      · intro h'
        exact hm h' (by simp [hit])
    | @attrs a s l ha hl =>
      have hfa : fold ('/' :: a :: s) = '/' :: 'a' :: fold s := by rcases ha with rfl | rfl <;> rfl
      have hd : ¬ s.head? = some ':' := by
        cases hl with
        | nil => simp
        | present hl hc _ => cases hl <;> intro h0 <;> simp only [List.head?_cons, Option.some.injEq] at h0 <;> subst h0 <;> revert hc <;> decide
        | absent _ _ _ => simp
      rw [if_neg (by rw [hfa]; simp), if_pos (hpre.2 (by rw [hfa]; exact ⟨fold s, rfl⟩))]
      simp only [List.drop_succ_cons, List.drop_zero, if_neg hd, makeAttr_text hl]
      refine Eq.trans (ih _ _ _ (by rfl)) ?_
      rw [copyAttr_cons attr]
      simp [copyState, copyNames, item_ne]
    | @attrs' a s l ha hl =>
      have hfa : fold ('/' :: a :: ':' :: s) = '/' :: 'a' :: fold (':' :: s) := by rcases ha with rfl | rfl <;> rfl
      rw [if_neg (by rw [hfa]; simp), if_pos (hpre.2 (by rw [hfa]; exact ⟨fold (':' :: s), rfl⟩))]
      simp only [List.drop_succ_cons, List.drop_zero, List.head?_cons, if_true, makeAttr_text hl]
      refine Eq.trans (ih _ _ _ (by rfl)) ?_
      rw [copyAttr_cons attr]
      simp [copyState, copyNames, item_ne]
    | name h1 h2 h3 h4 =>
      simp only [List.mem_cons, List.not_mem_nil, or_false, not_or] at h2
      rw [if_neg, if_neg (by rw [hpre]; exact h1), if_neg (fun h => h2.2.2 h.symm), if_neg h3, if_neg (show ¬ t = "+".toList from h4)]
      · refine Eq.trans (ih _ _ _ (by rfl)) ?_
        simp [copyState, copyAttr, copyNames, item_ne]
      · rintro (h | h)
        · exact h2.1 h.symm
        · exact h2.2.1 h.symm

theorem getLast?_append_ne {α : Type} (l : List α) {m : List α} (h : m ≠ []) : (l ++ m).getLast? = m.getLast? := by
  rw [List.getLast?_append]
  cases hm : m.getLast? with
  | none => exact absurd (List.getLast?_eq_none_iff.1 hm) h
  | some c => rfl

/-- The name of a file in its directory. -/
theorem copyBase_base {f b : List Char} (h : Base f b) (hlen : f.length < 4096) (hd : ¬ HasDrive f) (hc : '^' ∉ f) (hb : '\\' ∉ f) :
    copyBase f = .ok b := by
  obtain ⟨d, rfl, h1, h2⟩ := h
  obtain ⟨dir, name, ext, e1, e2, e3⟩ := split_rest 4096 (d ++ b) [] hlen
  obtain ⟨e4, e5, -⟩ := e3 hc
  unfold copyBase
  rw [(driveOf_none _).2 hd]
  simp only
  unfold splitToken at e1
  have hcn : copyName 4096 ((d ++ b).take (dirLen (d ++ b))) = .ok ((d ++ b).take (dirLen (d ++ b))) := by
    unfold copyName
    rw [if_pos]
    rw [List.length_take]
    omega
  rw [hcn, Res.ok_bind] at e1
  have hsn : ∀ p q, splitName 4096 p q ((d ++ b).drop (dirLen (d ++ b))) = .ok ⟨p, q, name, ext⟩ := by
    intro p q
    unfold splitName at e1 ⊢
    split at e1
    · next i hi =>
      rcases hr : copyName 4096 (((d ++ b).drop (dirLen (d ++ b))).take i) with x | _ | _ <;> rw [hr] at e1
      · simp only [Res.ok_bind, Res.pure_eq, Res.ok.injEq, PathParts.mk.injEq] at e1 ⊢
        exact ⟨trivial, trivial, e1.2.2.1, e1.2.2.2⟩
      · cases e1
      · cases e1
    · rcases hr : copyName 4096 ((d ++ b).drop (dirLen (d ++ b))) with x | _ | _ <;> rw [hr] at e1
      · simp only [Res.ok_bind, Res.pure_eq, Res.ok.injEq, PathParts.mk.injEq] at e1 ⊢
        exact ⟨trivial, trivial, e1.2.2.1, e1.2.2.2⟩
      · cases e1
      · cases e1
  rw [hsn, Res.ok_bind]
  have hsep : ∀ c, PathSep c → c ∈ d ++ b → c = '/' := by
    rintro c (rfl | rfl) hm
    · exact absurd hm hb
    · rfl
  have key : dir = d ∧ name ++ ext = b := by
    rw [List.append_assoc] at e2
    rcases List.append_eq_append_iff.1 e2 with ⟨m, rfl, h⟩ | ⟨m, rfl, h⟩
    · -- `d = dir ++ m`: `m` ends with a separator and is in `name ++ ext`
      rcases h1 with h1 | h1
      · obtain ⟨rfl, rfl⟩ := List.append_eq_nil_iff.1 h1
        exact ⟨by simp, by simpa using h⟩
      · by_cases hm : m = []
        · subst hm; exact ⟨by simp, by simpa using h⟩
        · exfalso
          rw [getLast?_append_ne _ hm] at h1
          have : '/' ∈ m := List.mem_of_getLast? h1
          exact e5 '/' (by rw [h]; simp [this]) (.inr rfl)
    · by_cases hm : m = []
      · subst hm; exact ⟨by simp, by simpa using h.symm⟩
      · exfalso
        rcases e4 with e4 | ⟨d', c, e4, e6⟩
        · exact hm (List.append_eq_nil_iff.1 e4).2
        · have hl : (d ++ m).getLast? = some c := by rw [e4]; simp
          rw [getLast?_append_ne _ hm] at hl
          have hcm : c ∈ m := List.mem_of_getLast? hl
          have := hsep c e6 (by rw [h]; simp [hcm])
          subst this
          exact h2 (by rw [h]; simp [hcm])
  have hl : name.length + ext.length < 4096 := by
    have := congrArg List.length e2
    simp only [List.length_append] at this hlen
    omega
  simp only
  rw [if_neg (by omega), key.2]
  rfl

theorem makePath_inDir (d b : List Char) (hd : d ≠ []) : makePath d b = inDir (some d) b := by
  unfold makePath inDir
  cases h : d.getLast? with
  | none => exact absurd (List.getLast?_eq_none_iff.1 h) hd
  | some c => simp [h]

/-- The kind of work of the flags. -/
def copyKindOf (fl : CopyFlags) : CopyKind := if fl.move then .move else if fl.cat then .join else .copy

theorem copyOne_do {W : Type} (ops : CopyOps W) (words : AskWords) (dest file real : List Char) (w : W) (input rest : List Char) (fl : CopyFlags) (a : Int)
    (hr : copyReal fl dest file = .ok real) (ha : a = 1 ∨ a = 4)
    (hask : copyAsk ops words real w input fl = .ok (a, rest)) :
    ∃ st, copyOne ops words dest file w input fl = .ok ((((copyKindOf fl).op ops (w, fl.second) file real).1.1), rest,
      { fl with silence := fl.silence || (a == 4), second := ((copyKindOf fl).op ops (w, fl.second) file real).1.2 }, st) ∧
      (st = 0#32 ↔ ((copyKindOf fl).op ops (w, fl.second) file real).2 = true) := by
  unfold copyOne
  rw [hr, Res.ok_bind, hask, Res.ok_bind]
  have h14 : a = 4 ∨ a = 1 := ha.symm
  simp only [if_pos h14]
  obtain ⟨s, m, mv, r, c, sec⟩ := fl
  rcases ha with rfl | rfl <;> cases mv <;> cases c <;> simp [copyKindOf, CopyKind.op]

theorem copyOne_skip {W : Type} (ops : CopyOps W) (words : AskWords) (dest file real : List Char) (w : W) (input rest : List Char) (fl : CopyFlags)
    (hr : copyReal fl dest file = .ok real)
    (hask : copyAsk ops words real w input fl = .ok (2, rest)) :
    copyOne ops words dest file w input fl = .ok (w, rest, fl, 0#32) := by
  unfold copyOne
  rw [hr, Res.ok_bind, hask, Res.ok_bind]
  simp

theorem or_zero_iff (a b : BitVec 32) : a ||| b = 0#32 ↔ a = 0#32 ∧ b = 0#32 := by
  constructor
  · intro h
    constructor
    · apply BitVec.eq_of_getLsbD_eq
      intro i hi
      have := congrArg (fun x : BitVec 32 => x.getLsbD i) h
      simp only [BitVec.getLsbD_or] at this
      simp at this ⊢
      exact this.1
    · apply BitVec.eq_of_getLsbD_eq
      intro i hi
      have := congrArg (fun x : BitVec 32 => x.getLsbD i) h
      simp only [BitVec.getLsbD_or] at this
      simp at this ⊢
      exact this.2
  · rintro ⟨rfl, rfl⟩; rfl

/-- Without questions. -/
theorem copyEach_all {W : Type} (ops : CopyOps W) (words : AskWords) (dest : List Char) (k : CopyKind) : ∀ (ps : List (List Char × List Char)) (w : W)
    (input : List Char) (fl : CopyFlags) (st : BitVec 32), fl.silence = true → copyKindOf fl = k → (∀ p ∈ ps, copyReal fl dest p.1 = .ok p.2) →
    ∃ fl' st', copyEach ops words dest (ps.map (·.1)) w input fl st = .ok ((copyAll (k.op ops) (w, fl.second) ps).1.1, input, fl', st') ∧
      (st' = 0#32 ↔ st = 0#32 ∧ (copyAll (k.op ops) (w, fl.second) ps).2 = true)
  | [], w, input, fl, st, _, _, _ => ⟨fl, st, by simp [copyEach, copyAll]⟩
  | (a, d) :: ps, w, input, fl, st, hs, hk, hr => by
    obtain ⟨st1, h1, h2⟩ := copyOne_do ops words dest a d w input input fl 1 (hr (a, d) (by simp)) (.inl rfl) (by simp [copyAsk, hs])
    rw [hk] at h1 h2
    obtain ⟨fl', st', h3, h4⟩ := copyEach_all ops words dest k ps (k.op ops (w, fl.second) a d).1.1 input
      { fl with silence := fl.silence || ((1 : Int) == 4), second := (k.op ops (w, fl.second) a d).1.2 } (st ||| st1) (by simp [hs]) (by rw [← hk]; rfl)
      (fun p hp => hr p (by simp [hp]))
    refine ⟨fl', st', ?_, ?_⟩
    · simp only [List.map_cons]
      rw [copyEach, h1, Res.ok_bind]
      simp only
      rw [h3]
      simp [copyAll]
    · rw [h4, or_zero_iff, h2]
      simp [copyAll, and_assoc]

/-- With questions. -/
theorem copyEach_dialog {W : Type} (ops : CopyOps W) {words : AskWords} (hw : ClearWords words) (dest : List Char) (k : CopyKind)
    {s : W × Bool} {ps : List (List Char × List Char)} {input rest : List Char} {r : (W × Bool) × Bool}
    (h : CopyDialog words (fun s => ops.isReg s.1) (k.op ops) s ps input r rest) : ∀ (fl : CopyFlags) (st : BitVec 32), fl.silence = false →
    copyKindOf fl = k → fl.second = s.2 → (∀ p ∈ ps, copyReal fl dest p.1 = .ok p.2) →
    ∃ fl' st', copyEach ops words dest (ps.map (·.1)) s.1 input fl st = .ok (r.1.1, rest, fl', st') ∧ (st' = 0#32 ↔ st = 0#32 ∧ r.2 = true) := by
  induction h with
  | nil => intro fl st _ _ _ _; exact ⟨fl, st, by simp [copyEach]⟩
  | @fresh s a d ps i r rest hd _ ih =>
    intro fl st hs hk hsec hr
    obtain ⟨st1, h1, h2⟩ := copyOne_do ops words dest a d s.1 i i fl 1 (hr (a, d) (by simp)) (.inl rfl) (by simp [copyAsk, hd])
    rw [hk, hsec] at h1 h2
    obtain ⟨fl', st', h3, h4⟩ := ih { fl with silence := fl.silence || ((1 : Int) == 4), second := (k.op ops s a d).1.2 } (st ||| st1) (by simp [hs])
      (by rw [← hk]; rfl) rfl (fun p hp => hr p (by simp [hp]))
    refine ⟨fl', st', ?_, ?_⟩
    · simp only [List.map_cons]
      rw [copyEach, h1, Res.ok_bind]
      exact h3
    · rw [h4, or_zero_iff, h2]
      simp [and_assoc]
  | @yes s a d ps i t i' r rest hd ht hy _ ih =>
    intro fl st hs hk hsec hr
    obtain ⟨st1, h1, h2⟩ := copyOne_do ops words dest a d s.1 i i' fl 1 (hr (a, d) (by simp)) (.inl rfl)
      (by unfold copyAsk; rw [if_pos ⟨hd, hs⟩]; exact ask_yes hw ht hy)
    rw [hk, hsec] at h1 h2
    obtain ⟨fl', st', h3, h4⟩ := ih { fl with silence := fl.silence || ((1 : Int) == 4), second := (k.op ops s a d).1.2 } (st ||| st1) (by simp [hs])
      (by rw [← hk]; rfl) rfl (fun p hp => hr p (by simp [hp]))
    refine ⟨fl', st', ?_, ?_⟩
    · simp only [List.map_cons]
      rw [copyEach, h1, Res.ok_bind]
      exact h3
    · rw [h4, or_zero_iff, h2]
      simp [and_assoc]
  | @no s a d ps i t i' r rest hd ht hn _ ih =>
    intro fl st hs hk hsec hr
    have h1 := copyOne_skip ops words dest a d s.1 i i' fl (hr (a, d) (by simp)) (by unfold copyAsk; rw [if_pos ⟨hd, hs⟩]; exact ask_no hw ht hn)
    obtain ⟨fl', st', h3, h4⟩ := ih fl (st ||| 0#32) hs hk hsec (fun p hp => hr p (by simp [hp]))
    refine ⟨fl', st', ?_, ?_⟩
    · simp only [List.map_cons]
      rw [copyEach, h1, Res.ok_bind]
      exact h3
    · rw [h4]; simp
  | @all s a d ps i t i' hd ht hall =>
    intro fl st hs hk hsec hr
    obtain ⟨st1, h1, h2⟩ := copyOne_do ops words dest a d s.1 i i' fl 4 (hr (a, d) (by simp)) (.inr rfl)
      (by unfold copyAsk; rw [if_pos ⟨hd, hs⟩]; exact ask_all hw ht hall)
    rw [hk, hsec] at h1 h2
    obtain ⟨fl', st', h3, h4⟩ := copyEach_all ops words dest k ps (k.op ops s a d).1.1 i'
      { fl with silence := fl.silence || ((4 : Int) == 4), second := (k.op ops s a d).1.2 } (st ||| st1) (by simp) (by rw [← hk]; rfl)
      (fun p hp => hr p (by simp [hp]))
    refine ⟨fl', st', ?_, ?_⟩
    · simp only [List.map_cons]
      rw [copyEach, h1, Res.ok_bind]
      simp only
      rw [h3]
      simp [copyAll]
    · rw [h4, or_zero_iff, h2]
      simp [copyAll, and_assoc]

/-- The attributes asked for, together with "no directory", are among those the filter handles (`C34_filter_partial`). -/
structure CopySound (items : List CopyItem) : Prop where
  both : ∀ a, ¬ ((a, true) ∈ (Attr.dir, false) :: copySel items ∧ (a, false) ∈ (Attr.dir, false) :: copySel items)
  neg : (Attr.system, false) ∉ copySel items ∧ (Attr.void, false) ∉ copySel items
  hid : (Attr.hidden, false) ∈ copySel items → (Attr.system, true) ∉ copySel items ∧ (Attr.void, true) ∉ copySel items

theorem copy_filter (items : List CopyItem) (hs : CopySound items) (f : FileStat) :
    checkFileAttributes (copyAttr 0#16 items ||| 0xC00#16) f = (!fileHas f .dir && (copySel items).all fun p => fileHas f p.1 == p.2) := by
  have h1 : copyAttr 0#16 items = flagsOf (copySel items) := by
    unfold copyAttr copySel
    cases (items.filterMap fun | .attrs l => some l | _ => none).getLast? <;> simp [flagsOf]
  have h2 : copyAttr 0#16 items ||| 0xC00#16 = flagsOf ((Attr.dir, false) :: copySel items) := by
    rw [h1, flagsOf, BitVec.or_comm]
    rfl
  rw [h2, Bool.eq_iff_iff, check_flags _ f hs.both (by simpa using hs.neg) (by simpa using hs.hid)]
  simp

/-- A name whose parts `pBat_SplitPath` finds: short enough, no drive, no escape character, no backslash. -/
structure CopyPlain (f : List Char) : Prop where
  short : f.length < 4096
  drive : ¬ HasDrive f
  caret : '^' ∉ f
  back : '\\' ∉ f

theorem copyTargets_eq (full : List Char → List Char) (search : List Char → List (List Char)) (stat : List Char → FileStat) (items : List CopyItem)
    (hs : CopySound items) (srcs : List (List Char)) (dst : List Char) (hn : copyNames items = srcs ++ [dst]) :
    ((srcs.map full).flatMap search).filter (fun f => checkFileAttributes (copyAttr 0#16 items ||| 0xC00#16) (stat f)) =
      copyTargets full search (fun f => fileHas (stat f)) items := by
  unfold copyTargets
  rw [hn, List.dropLast_concat, List.flatMap_map]
  apply List.filter_congr
  intro f _
  exact copy_filter items hs (stat f)

/-- After the parameters and the search. -/
theorem cmdCopy_each {W : Type} (ops : CopyOps W) (words : AskWords) (full : List Char → List Char) (search deep : List Char → List (List Char))
    (stat : List Char → FileStat) (move : Bool) (ps : List (List Char × CopyItem)) (hp : ∀ p ∈ ps, CopyText p.1 p.2) (items : List CopyItem)
    (hi : items = ps.map (·.2)) (hdeep : .deep ∉ items) (hmv : move = true → .plus ∉ items) (srcs : List (List Char)) (dst : List Char)
    (hn : copyNames items = srcs ++ [dst]) (hne : srcs ≠ []) (hs : CopySound items) (hf : ∀ n ∈ srcs, search (full n) ≠ []) (w : W) (input : List Char)
    (files : List (List Char)) (hfiles : files = copyTargets full search (fun f => fileHas (stat f)) items) (i : Nat)
    (hc : i = copyCount (files.length - 1) srcs.length) (folder plus : Bool)
    (hfolder : folder = true ↔ ops.isDir w (full dst) = true ∨ (full dst).getLast? = some '/') (hplus : plus = decide (.plus ∈ items)) :
    cmdCopy ops words full search deep stat move (ps.map (·.1)) w input =
      (do let r ← copyEach ops words (full dst) files w input
            ⟨decide (.ask ∈ items), folder || (decide (i = 3) && move), move, false, plus || (decide (i = 3) && !folder && !move), false⟩ 0#32
          pure (r.1, r.2.1, r.2.2.2)) := by
  unfold cmdCopy
  rw [copyParams_items full ps _ _ _ hp (by rw [← hi]; exact hmv), ← hi]
  simp only [List.nil_append, hn, List.map_append, List.map_cons, List.map_nil]
  obtain ⟨src, srcs', rfl⟩ := List.exists_cons_of_ne_nil hne
  unfold copyRun
  simp only [List.getLast?_concat, List.dropLast_concat]
  simp only [List.map_cons]
  have hst : copyState ⟨false, false, move, false, false, false⟩ items = ⟨decide (.ask ∈ items), false, move, false, plus, false⟩ := by
    simp [copyState, hdeep, hplus]
  rw [hst]
  have hsrch := delSearch_found (fun _ => search) false (full src :: srcs'.map full) (by
    intro n hn'
    rw [← List.map_cons, List.mem_map] at hn'
    obtain ⟨m, hm, rfl⟩ := hn'
    exact hf m hm)
  simp only [hsrch, Bool.false_eq_true, false_and, if_false]
  have ht := copyTargets_eq full search stat items hs (src :: srcs') dst hn
  simp only [List.map_cons] at ht
  rw [ht, ← hfiles]
  rw [List.length_map, show srcs'.length + 1 = (src :: srcs').length from rfl, ← hc]
  by_cases h1 : ops.isDir w (full dst) = true ∨ (full dst).getLast? = some '/'
  · have hfo : folder = true := hfolder.2 h1
    rw [if_pos h1, hfo]
    by_cases h3 : i = 3
    · simp [h3]
    · simp [h3]
  · have hfo : folder = false := by
      cases folder with
      | false => rfl
      | true => exact absurd (hfolder.1 rfl) h1
    rw [if_neg h1, hfo]
    by_cases h3 : i = 3
    · cases move
      · simp [h3]
      · simp [h3]
    · simp [h3]

theorem copyReal_flat (fl : CopyFlags) (h : fl.multiple = false ∨ fl.cat = true) (dest f : List Char) : copyReal fl dest f = .ok dest := by
  unfold copyReal
  rw [if_neg]
  rcases h with h | h <;> simp [h]

theorem copyReal_folder (fl : CopyFlags) (h1 : fl.multiple = true) (h2 : fl.cat = false) (dest f b : List Char) (hd : dest ≠ []) (hb : Base f b)
    (hf : CopyPlain f) : copyReal fl dest f = .ok (inDir (some dest) b) := by
  unfold copyReal
  rw [if_pos ⟨h1, h2⟩, copyBase_base hb hf.short hf.drive hf.caret hf.back, Res.ok_bind, makePath_inDir dest b hd]
  rfl

theorem copyCount_three (m : Nat) : copyCount (m + 2) 1 = 3 ∧ copyCount (m + 1) 2 = 3 := by
  simp [copyCount]

theorem copyCount_zero (i : Nat) : copyCount 0 i = i := rfl

theorem copyCount_one : copyCount 1 1 = 2 := rfl

theorem copyCount_many (n i : Nat) (hi : 3 ≤ i) (hn : 1 ≤ n) : copyCount n i = i + 1 := by
  cases n with
  | zero => omega
  | succ n => rw [copyCount, if_neg (by omega)]

/-- The kind of work and the destinations of the flags are those of the plan. -/
theorem plan_flags (move plus folder : Bool) (hmv : move = true → plus = false) (several : Bool) (dest : List Char) (hd : dest ≠ []) (base : List Char → List Char)
    (files : List (List Char)) (hb : ∀ f ∈ files, Base f (base f) ∧ CopyPlain f) (three ask : Bool)
    (hc : folder = true ∨ plus = true ∨ three = several) :
    let fl : CopyFlags := ⟨ask, folder || (three && move), move, false, plus || (three && !folder && !move), false⟩
    copyKindOf fl = (copyPlan move plus folder several dest base).1 ∧
      ∀ p ∈ files.map (fun f => (f, (copyPlan move plus folder several dest base).2 f)), copyReal fl dest p.1 = .ok p.2 := by
  intro fl
  constructor
  · simp only [fl, copyKindOf, copyPlan]
    cases move <;> cases plus <;> cases folder <;> cases several <;> cases three <;> first | rfl | (simp at hc hmv) | simp
  · intro p hp
    rw [List.mem_map] at hp
    obtain ⟨f, hf, rfl⟩ := hp
    simp only
    have hfold := fun (h1 : fl.multiple = true) (h2 : fl.cat = false) => copyReal_folder fl h1 h2 dest f (base f) hd (hb f hf).1 (hb f hf).2
    have hflat := fun h => copyReal_flat fl h dest f
    simp only [fl] at hfold hflat ⊢
    unfold copyPlan
    cases move <;> cases plus <;> cases folder <;> cases several <;> cases three <;>
      first
      | (exact hfold rfl rfl)
      | (exact hflat (.inl rfl))
      | (exact hflat (.inr rfl))
      | (simp at hc hmv)

/-- When the number of files is counted rightly: the destination is a folder, or there is `+`, or the count does not matter. -/
def CountOk (folder plus : Bool) (srcs files : Nat) : Prop :=
  folder = true ∨ plus = true ∨ (files ≤ 1 ∧ srcs ≠ 3) ∨ (srcs = 1 ∧ 3 ≤ files) ∨ (srcs = 2 ∧ 2 ≤ files)

theorem countOk_three {folder plus : Bool} {srcs files : Nat} (h : CountOk folder plus srcs files) :
    folder = true ∨ plus = true ∨ decide (copyCount (files - 1) srcs = 3) = decide (2 ≤ files) := by
  rcases h with h | h | ⟨h1, h2⟩ | ⟨rfl, h⟩ | ⟨rfl, h⟩
  · exact .inl h
  · exact .inr (.inl h)
  · refine .inr (.inr ?_)
    rw [show files - 1 = 0 by omega, copyCount_zero]
    simp only [decide_eq_decide]
    omega
  · refine .inr (.inr ?_)
    rw [show files - 1 = (files - 3) + 2 by omega, (copyCount_three _).1]
    simp
    omega
  · refine .inr (.inr ?_)
    rw [show files - 1 = (files - 2) + 1 by omega, (copyCount_three _).2]
    simp
    omega

/-- COPY and MOVE follow the rule of the manual pages: each file found for the sources goes to the destination given by the rule, in order, with a
question when that destination is an existing file; the level is 0 if and only if all the work succeeded. -/
theorem C60_plan_partial {W : Type} (ops : CopyOps W) (words : AskWords) (hw : ClearWords words) (full : List Char → List Char)
    (search deep : List Char → List (List Char)) (stat : List Char → FileStat) (move : Bool) (ps : List (List Char × CopyItem))
    (hp : ∀ p ∈ ps, CopyText p.1 p.2) (items : List CopyItem)
    (hi : items = ps.map (·.2)) (hdeep : .deep ∉ items) (hmv : move = true → .plus ∉ items) (hask : .ask ∉ items) (srcs : List (List Char))
    (dst : List Char) (hn : copyNames items = srcs ++ [dst]) (hne : srcs ≠ []) (hdst : full dst ≠ []) (hs : CopySound items)
    (hf : ∀ n ∈ srcs, search (full n) ≠ []) (w : W) (input : List Char)
    (files : List (List Char)) (hfiles : files = copyTargets full search (fun f => fileHas (stat f)) items) (folder : Bool)
    (hfolder : folder = true ↔ ops.isDir w (full dst) = true ∨ (full dst).getLast? = some '/')
    (hcount : CountOk folder (decide (.plus ∈ items)) srcs.length files.length)
    (base : List Char → List Char) (hb : ∀ f ∈ files, Base f (base f) ∧ CopyPlain f)
    (plan : CopyKind × (List Char → List Char))
    (hplan : plan = copyPlan move (decide (.plus ∈ items)) folder (decide (2 ≤ files.length)) (full dst) base)
    (r : (W × Bool) × Bool) (rest : List Char)
    (hd : CopyDialog words (fun s => ops.isReg s.1) (plan.1.op ops) (w, false) (files.map fun f => (f, plan.2 f)) input r rest) :
    ∃ lvl, cmdCopy ops words full search deep stat move (ps.map (·.1)) w input = .ok (r.1.1, rest, lvl) ∧ (lvl = 0#32 ↔ r.2 = true) := by
  rw [cmdCopy_each ops words full search deep stat move ps hp items hi hdeep hmv srcs dst hn hne hs hf w input files hfiles _ rfl folder _ hfolder rfl]
  obtain ⟨hk, hr⟩ := plan_flags move (decide (.plus ∈ items)) folder (fun h => by simpa using hmv h) (decide (2 ≤ files.length)) (full dst) hdst base files hb
    (decide (copyCount (files.length - 1) srcs.length = 3)) (decide (.ask ∈ items)) (countOk_three hcount)
  rw [← hplan] at hk hr
  obtain ⟨fl', st', h1, h2⟩ := copyEach_dialog ops hw (full dst) plan.1 hd _ 0#32 (by simpa using hask) hk rfl hr
  rw [List.map_map, show ((fun x : List Char × List Char => x.1) ∘ fun f => (f, plan.2 f)) = id from rfl, List.map_id] at h1
  rw [h1, Res.ok_bind]
  exact ⟨st', rfl, by simpa using h2⟩

/-- Violation: the option slash minus Y, which the manual pages give for "ask", takes the questions away. -/
theorem C60_swapped {W : Type} (ops : CopyOps W) (words : AskWords) (full : List Char → List Char)
    (search deep : List Char → List (List Char)) (stat : List Char → FileStat) (move : Bool) (ps : List (List Char × CopyItem))
    (hp : ∀ p ∈ ps, CopyText p.1 p.2) (items : List CopyItem)
    (hi : items = ps.map (·.2)) (hdeep : .deep ∉ items) (hmv : move = true → .plus ∉ items) (hask : .ask ∈ items) (srcs : List (List Char))
    (dst : List Char) (hn : copyNames items = srcs ++ [dst]) (hne : srcs ≠ []) (hdst : full dst ≠ []) (hs : CopySound items)
    (hf : ∀ n ∈ srcs, search (full n) ≠ []) (w : W) (input : List Char)
    (files : List (List Char)) (hfiles : files = copyTargets full search (fun f => fileHas (stat f)) items) (folder : Bool)
    (hfolder : folder = true ↔ ops.isDir w (full dst) = true ∨ (full dst).getLast? = some '/')
    (hcount : CountOk folder (decide (.plus ∈ items)) srcs.length files.length)
    (base : List Char → List Char) (hb : ∀ f ∈ files, Base f (base f) ∧ CopyPlain f)
    (plan : CopyKind × (List Char → List Char))
    (hplan : plan = copyPlan move (decide (.plus ∈ items)) folder (decide (2 ≤ files.length)) (full dst) base)
    (r : (W × Bool) × Bool) (hr : r = copyAll (plan.1.op ops) (w, false) (files.map fun f => (f, plan.2 f))) :
    ∃ lvl, cmdCopy ops words full search deep stat move (ps.map (·.1)) w input = .ok (r.1.1, input, lvl) ∧ (lvl = 0#32 ↔ r.2 = true) := by
  rw [cmdCopy_each ops words full search deep stat move ps hp items hi hdeep hmv srcs dst hn hne hs hf w input files hfiles _ rfl folder _ hfolder rfl]
  obtain ⟨hk, hr'⟩ := plan_flags move (decide (.plus ∈ items)) folder (fun h => by simpa using hmv h) (decide (2 ≤ files.length)) (full dst) hdst base files hb
    (decide (copyCount (files.length - 1) srcs.length = 3)) (decide (.ask ∈ items)) (countOk_three hcount)
  rw [← hplan] at hk hr'
  obtain ⟨fl', st', h1, h2⟩ := copyEach_all ops words (full dst) plan.1 (files.map fun f => (f, plan.2 f)) w input _ 0#32 (by simpa using hask) hk hr'
  rw [List.map_map, show ((fun x : List Char × List Char => x.1) ∘ fun f => (f, plan.2 f)) = id from rfl, List.map_id] at h1
  rw [h1, Res.ok_bind]
  subst hr
  exact ⟨st', rfl, by simpa using h2⟩

/-- A name that matches nothing: level 42, and nothing is done, whatever the other names. -/
theorem C60_no_match {W : Type} (ops : CopyOps W) (words : AskWords) (full : List Char → List Char)
    (search deep : List Char → List (List Char)) (stat : List Char → FileStat) (move : Bool) (ps : List (List Char × CopyItem))
    (hp : ∀ p ∈ ps, CopyText p.1 p.2) (items : List CopyItem)
    (hi : items = ps.map (·.2)) (hdeep : .deep ∉ items) (hmv : move = true → .plus ∉ items) (srcs : List (List Char))
    (dst : List Char) (hn : copyNames items = srcs ++ [dst]) (hf : ∃ n ∈ srcs, search (full n) = []) (w : W) (input : List Char) :
    cmdCopy ops words full search deep stat move (ps.map (·.1)) w input = .ok (w, input, 42#32) := by
  unfold cmdCopy
  rw [copyParams_items full ps _ _ _ hp (by rw [← hi]; exact hmv), ← hi]
  simp only [List.nil_append, hn, List.map_append, List.map_cons, List.map_nil]
  obtain ⟨n, hn1, hn2⟩ := hf
  obtain ⟨src, srcs', rfl⟩ := List.exists_cons_of_ne_nil (List.ne_nil_of_mem hn1)
  unfold copyRun
  simp only [List.getLast?_concat, List.dropLast_concat]
  simp only [List.map_cons]
  have h1 : (copyState ⟨false, false, move, false, false, false⟩ items).recursive = false := by simp [copyState, hdeep]
  have hsrch := delSearch_missing (fun _ => search) false (full src :: srcs'.map full) (by
    refine ⟨full n, ?_, hn2⟩
    rw [← List.map_cons]
    exact List.mem_map_of_mem hn1)
  simp [h1, hsrch]

/-- Less than two names: level 8.  Trees and `+` together: level 9.  `+` for MOVE: level 4.  Nothing is done. -/
theorem C60_refused {W : Type} (ops : CopyOps W) (words : AskWords) (full : List Char → List Char)
    (search deep : List Char → List (List Char)) (stat : List Char → FileStat) (ps : List (List Char × CopyItem))
    (hp : ∀ p ∈ ps, CopyText p.1 p.2) (items : List CopyItem) (hi : items = ps.map (·.2)) (w : W) (input : List Char) :
    (∀ move, (move = true → .plus ∉ items) → (copyNames items).length < 2 →
      cmdCopy ops words full search deep stat move (ps.map (·.1)) w input = .ok (w, input, 8#32)) ∧
    (.plus ∈ items → .deep ∈ items → 2 ≤ (copyNames items).length →
      cmdCopy ops words full search deep stat false (ps.map (·.1)) w input = .ok (w, input, 9#32)) ∧
    (∀ qs, .plus ∉ items → cmdCopy ops words full search deep stat true (ps.map (·.1) ++ ['+'] :: qs) w input = .ok (w, input, 4#32)) := by
  refine ⟨fun move hmv hlen => ?_, fun h1 h2 hlen => ?_, fun qs hpl => ?_⟩
  · unfold cmdCopy
    rw [copyParams_items full ps _ _ _ hp (by rw [← hi]; exact hmv), ← hi]
    simp only [List.nil_append]
    generalize copyNames items = l at hlen
    match l, hlen with
    | [], _ => rfl
    | [a], _ => rfl
    | _ :: _ :: _, h => simp only [List.length_cons] at h; omega
  · unfold cmdCopy
    rw [copyParams_items full ps _ _ _ hp (by simp), ← hi]
    simp only [List.nil_append]
    generalize copyNames items = l at hlen
    match l, hlen with
    | [], h => simp at h
    | [a], h => simp at h
    | a :: b :: l, _ =>
      unfold copyRun
      simp only [List.map_cons]
      rw [show (full a :: full b :: l.map full).dropLast = full a :: (full b :: l.map full).dropLast from rfl]
      cases hl : (full a :: full b :: l.map full).getLast? with
      | none => simp at hl
      | some d => simp [copyState, h1, h2]
  · unfold cmdCopy
    have : ∀ (ps : List (List Char × CopyItem)) (fl : CopyFlags) (attr : BitVec 16) (files : List (List Char)), (∀ p ∈ ps, CopyText p.1 p.2) →
        CopyItem.plus ∉ ps.map (·.2) → fl.move = true → copyParams full (ps.map (·.1) ++ ['+'] :: qs) fl attr files = .unexpected := by
      intro ps
      induction ps with
      | nil =>
        intro fl attr files _ _ hm
        simp [copyParams, hm, stricmp_zero, fold, prefixI]
      | cons p ps ih =>
        intro fl attr files h hpl hm
        have ih := fun fl attr files hm => ih fl attr files (fun p hp => h p (by simp [hp])) (fun hh => hpl (by simp only [List.map_cons]; exact List.mem_cons_of_mem _ hh)) hm
        have h0 := h p (by simp)
        have hp2 : p.2 ≠ .plus := fun h => hpl (by simp [h])
        simp only [List.map_cons, List.cons_append]
        rw [copyParams]
        split
        · split <;> exact ih _ _ _ hm
        · split
          · exact ih _ _ _ hm
          · split
            · exact ih _ _ _ hm
            · next hpre _ =>
              have hpre : ¬ "/a".toList <+: fold p.1 := by
                intro hh
                exact hpre (by rw [prefixI_iff]; exact hh)
              obtain ⟨t, it⟩ := p
              replace h0 : CopyText t it := h0
              generalize hit : it = it' at h0
              cases h0 with
              | quiet hf => simp_all [stricmp_zero, fold]
              | ask hf => simp_all [stricmp_zero, fold]
              | deep hf => simp_all [stricmp_zero, fold]
              | plus => exact absurd hit hp2
              | @attrs a s l ha hl =>
                exfalso
                apply hpre
                rcases ha with rfl | rfl <;> exact ⟨fold s, rfl⟩
              | @attrs' a s l ha hl =>
                exfalso
                apply hpre
                rcases ha with rfl | rfl <;> exact ⟨fold (':' :: s), rfl⟩
              | name h1 h2 h3 h4 =>
                rw [if_neg h3, if_neg (show ¬ t = "+".toList from h4)]
                exact ih _ _ _ hm
    rw [this ps _ _ _ hp (by rw [← hi]; exact hpl) rfl]

/-- The files of the disk, when no call of the system is refused: `es` gives the answers to the reads and writes. -/
def diskOps (es : Disk → List Char → List IoEv) (dirs : List Char → Bool) : CopyOps Disk where
  isReg f d := (f d).isSome
  isDir _ d := dirs d
  move f a d := ((moveFile true true f a d).1, BitVec.ofInt 32 (moveFile true true f a d).2)
  copy f a d := (copyFile true (es f a) f a d).elim (f, -1#32) fun r => (r.1, BitVec.ofInt 32 r.2)
  cat f a d s := (catFile true (es f a) f a d s).elim (f, -1#32, s) fun r => (r.1, BitVec.ofInt 32 r.2.1, r.2.2)
  mkdirs f _ := (f, 0#32)
  rmdir f _ := (f, 0#32)

/-- Every call passes at least a byte, and there are enough of them. -/
def FlowsWell (es : Disk → List Char → List IoEv) : Prop :=
  ∀ f a x, f a = some x → (∀ e ∈ es f a, ∃ k, e = .n (k + 1)) ∧ 2 * x.length < (es f a).length

/-- Copies, each to its own destination. -/
theorem disk_copyAll (es : Disk → List Char → List IoEv) (hes : FlowsWell es) (dirs : List Char → Bool) : ∀ (ps : List (List Char × List Char)) (f : Disk) (b : Bool),
    (∀ p ∈ ps, (f p.1).isSome) → (∀ p ∈ ps, ∀ q ∈ ps, p.1 ≠ q.2) → (ps.map (·.2)).Nodup →
    ∃ f', copyAll (CopyKind.copy.op (diskOps es dirs)) (f, b) ps = ((f', b), true) ∧ (∀ p ∈ ps, f' p.2 = f p.1) ∧ ∀ q, q ∉ ps.map (·.2) → f' q = f q
  | [], f, b, _, _, _ => ⟨f, rfl, by simp, by simp⟩
  | (a, d) :: ps, f, b, h1, h2, h3 => by
    obtain ⟨x, hx⟩ := Option.isSome_iff_exists.1 (h1 (a, d) (by simp))
    have hne : a ≠ d := h2 (a, d) (by simp) (a, d) (by simp)
    obtain ⟨f1, g1, g2, g3⟩ := C59_copy_ends (es f a) f a d x hx hne (hes f a x hx).1 (hes f a x hx).2
    have hop : CopyKind.copy.op (diskOps es dirs) (f, b) a d = ((f1, b), true) := by
      simp only [CopyKind.op, diskOps, g1, Option.elim_some]
      rfl
    simp only [List.map_cons, List.nodup_cons] at h3
    have hsrc : ∀ p ∈ ps, f1 p.1 = f p.1 := fun p hp => g3 p.1 (h2 p (by simp [hp]) (a, d) (by simp))
    obtain ⟨f', k1, k2, k3⟩ := disk_copyAll es hes dirs ps f1 b (fun p hp => by rw [hsrc p hp]; exact h1 p (by simp [hp]))
      (fun p hp q hq => h2 p (by simp [hp]) q (by simp [hq])) h3.2
    refine ⟨f', ?_, ?_, ?_⟩
    · rw [copyAll, hop]
      simp [k1]
    · intro p hp
      rcases List.mem_cons.1 hp with rfl | hp
      · simp only
        rw [k3 d h3.1, g2, hx]
      · rw [k2 p hp, hsrc p hp]
    · intro q hq
      simp only [List.map_cons, List.mem_cons, not_or] at hq
      rw [k3 q hq.2, g3 q hq.1]

/-- Moves, each to its own destination. -/
theorem disk_moveAll (es : Disk → List Char → List IoEv) (dirs : List Char → Bool) : ∀ (ps : List (List Char × List Char)) (f : Disk) (b : Bool),
    (∀ p ∈ ps, (f p.1).isSome) → (∀ p ∈ ps, ∀ q ∈ ps, p.1 ≠ q.2) → (ps.map (·.2)).Nodup → (ps.map (·.1)).Nodup →
    ∃ f', copyAll (CopyKind.move.op (diskOps es dirs)) (f, b) ps = ((f', b), true) ∧ (∀ p ∈ ps, f' p.2 = f p.1 ∧ f' p.1 = none) ∧
      ∀ q, q ∉ ps.map (·.1) → q ∉ ps.map (·.2) → f' q = f q
  | [], f, b, _, _, _, _ => ⟨f, rfl, by simp, by simp⟩
  | (a, d) :: ps, f, b, h1, h2, h3, h4 => by
    obtain ⟨x, hx⟩ := Option.isSome_iff_exists.1 (h1 (a, d) (by simp))
    have hne : a ≠ d := h2 (a, d) (by simp) (a, d) (by simp)
    obtain ⟨f1, g1, g2, g3, g4⟩ := C59_move f a d x hx hne
    have hop : CopyKind.move.op (diskOps es dirs) (f, b) a d = ((f1, b), true) := by
      simp only [CopyKind.op, diskOps, g1]
      rfl
    simp only [List.map_cons, List.nodup_cons] at h3 h4
    have hsrc : ∀ p ∈ ps, f1 p.1 = f p.1 := fun p hp => g4 p.1 (fun h => h4.1 (by rw [← h]; exact List.mem_map_of_mem hp)) (h2 p (by simp [hp]) (a, d) (by simp))
    obtain ⟨f', k1, k2, k3⟩ := disk_moveAll es dirs ps f1 b (fun p hp => by rw [hsrc p hp]; exact h1 p (by simp [hp]))
      (fun p hp q hq => h2 p (by simp [hp]) q (by simp [hq])) h3.2 h4.2
    have had : a ∉ ps.map (·.2) := by
      intro h
      obtain ⟨p, hp, he⟩ := List.mem_map.1 h
      exact h2 (a, d) (by simp) p (by simp [hp]) he.symm
    have hda : d ∉ ps.map (·.1) := by
      intro h
      obtain ⟨p, hp, he⟩ := List.mem_map.1 h
      exact h2 p (by simp [hp]) (a, d) (by simp) he
    refine ⟨f', ?_, ?_, ?_⟩
    · rw [copyAll, hop]
      simp [k1]
    · intro p hp
      rcases List.mem_cons.1 hp with rfl | hp
      · simp only
        rw [k3 d hda h3.1, g2, hx, k3 a h4.1 had, g3]
        exact ⟨rfl, rfl⟩
      · rw [(k2 p hp).1, hsrc p hp]
        exact ⟨rfl, (k2 p hp).2⟩
    · intro q hq1 hq2
      simp only [List.map_cons, List.mem_cons, not_or] at hq1 hq2
      rw [k3 q hq1.2 hq2.2, g4 q hq1.1 hq2.1]

/-- Files joined into another one. -/
theorem disk_joinAll (es : Disk → List Char → List IoEv) (hes : FlowsWell es) (dirs : List Char → Bool) (d : List Char) : ∀ (fs : List (List Char)) (f : Disk) (b : Bool),
    (∀ a ∈ fs, (f a).isSome ∧ a ≠ d) → fs ≠ [] →
    ∃ f', copyAll (CopyKind.join.op (diskOps es dirs)) (f, b) (fs.map fun a => (a, d)) = ((f', true), true) ∧
      f' d = some ((if b then (f d).getD [] else []) ++ fs.flatMap fun a => (f a).getD []) ∧ ∀ q, q ≠ d → f' q = f q
  | [], _, _, _, h => absurd rfl h
  | a :: fs, f, b, h1, _ => by
    obtain ⟨x, hx⟩ := Option.isSome_iff_exists.1 (h1 a (by simp)).1
    have hne : a ≠ d := (h1 a (by simp)).2
    obtain ⟨f1, g1, g2, g3⟩ := C59_cat_ends (es f a) f a d x b hx hne (hes f a x hx).1 (hes f a x hx).2
    have hop : CopyKind.join.op (diskOps es dirs) (f, b) a d = ((f1, true), true) := by
      simp only [CopyKind.op, diskOps, g1, Option.elim_some]
      rfl
    by_cases hfs : fs = []
    · subst hfs
      refine ⟨f1, ?_, ?_, g3⟩
      · simp [copyAll, hop]
      · rw [g2]; simp [hx]
    · have hsrc : ∀ p ∈ fs, f1 p = f p := fun p hp => g3 p (h1 p (by simp [hp])).2
      obtain ⟨f', k1, k2, k3⟩ := disk_joinAll es hes dirs d fs f1 true (fun p hp => by rw [hsrc p hp]; exact h1 p (by simp [hp])) hfs
      refine ⟨f', ?_, ?_, fun q hq => by rw [k3 q hq, g3 q hq]⟩
      · simp only [List.map_cons]
        rw [copyAll, hop]
        simp [k1]
      · rw [k2, g2]
        have : (fs.flatMap fun a => (f1 a).getD []) = fs.flatMap fun a => (f a).getD [] := by
          rw [List.flatMap_def, List.flatMap_def]
          congr 1
          exact List.map_congr_left fun p hp => by rw [hsrc p hp]
        simp [this, hx]

/-- Destinations that do not exist: no question. -/
theorem dialog_fresh {W : Type} (words : AskWords) (reg : W × Bool → List Char → Bool) (op : W × Bool → List Char → List Char → (W × Bool) × Bool) (input : List Char) :
    ∀ (ps : List (List Char × List Char)) (s : W × Bool), (∀ p ∈ ps, reg s p.2 = false) → (ps.map (·.2)).Nodup →
    (∀ s a d q, q ≠ d → reg s q = false → reg (op s a d).1 q = false) → CopyDialog words reg op s ps input (copyAll op s ps) input
  | [], s, _, _, _ => .nil
  | (a, d) :: ps, s, h1, h2, h3 => by
    simp only [List.map_cons, List.nodup_cons] at h2
    have := dialog_fresh words reg op input ps (op s a d).1 (fun p hp => h3 s a d p.2 (fun h => h2.1 (by rw [← h]; exact List.mem_map_of_mem hp)) (h1 p (by simp [hp]))) h2.2 h3
    exact .fresh (h1 (a, d) (by simp)) this

theorem diskOps_keeps (es : Disk → List Char → List IoEv) (dirs : List Char → Bool) (s : Disk × Bool) (a d q : List Char) (hq : q ≠ d)
    (h : (s.1 q).isSome = false) : (((CopyKind.move.op (diskOps es dirs) s a d).1.1) q).isSome = false := by
  simp only [CopyKind.op, diskOps, moveFile]
  by_cases hd : (s.1 d).isSome = true
  · simp only [hd, if_true]
    by_cases had : a = d
    · simp [had, hq, h]
    · simp only [had, if_false]
      cases s.1 a with
      | none => simp [hq, h]
      | some x =>
        simp only [if_true, hq, if_false]
        split
        · rfl
        · exact h
  · simp only [hd]
    simp only [Bool.false_eq_true, if_false]
    cases s.1 a with
    | none => simpa using h
    | some x =>
      simp only [if_true, hq, if_false]
      split
      · rfl
      · exact h

theorem copyBytes_keeps (src dst : List Char) (app : Bool) (code : Int) (q : List Char) (hq : q ≠ dst) : ∀ (es : List IoEv) (f : Disk) (ro wo : Nat)
    (st : Option (List Char × Nat)) (r : Disk × Int), copyBytes src dst app code es f ro wo st = some r → r.1 q = f q
  | [], _, _, _, _, _, h => by simp [copyBytes] at h
  | .err :: es, f, ro, wo, none, r, h => by
    simp only [copyBytes, Option.some.injEq] at h
    rw [← h]
  | .n k :: es, f, ro, wo, none, r, h => by
    simp only [copyBytes] at h
    split at h
    · simp only [Option.some.injEq] at h; rw [← h]
    · exact copyBytes_keeps src dst app code q hq es f _ _ _ r h
  | .err :: es, f, ro, wo, some (buf, wr), r, h => by
    simp only [copyBytes] at h
    split at h
    · simp only [Option.some.injEq] at h; rw [← h]
    · exact copyBytes_keeps src dst app code q hq es f _ _ _ r h
  | .n k :: es, f, ro, wo, some (buf, wr), r, h => by
    simp only [copyBytes] at h
    split at h
    all_goals
      rw [copyBytes_keeps src dst app code q hq es _ _ _ _ r h]
      exact disk_set_other _ _ _ _ hq

theorem diskOps_keeps_copy (es : Disk → List Char → List IoEv) (dirs : List Char → Bool) (s : Disk × Bool) (a d q : List Char) (hq : q ≠ d)
    (h : (s.1 q).isSome = false) : (((CopyKind.copy.op (diskOps es dirs) s a d).1.1) q).isSome = false := by
  simp only [CopyKind.op, diskOps]
  cases hc : copyFile true (es s.1 a) s.1 a d with
  | none => exact h
  | some r =>
    simp only [Option.elim_some]
    unfold copyFile at hc
    split at hc
    · simp only [Option.some.injEq] at hc; rw [← hc]; exact h
    · simp only [Bool.true_eq_false, if_false] at hc
      rw [copyBytes_keeps a d false 48 q hq _ _ _ _ _ r hc, disk_set_other _ _ _ _ hq]
      exact h

/-- End to end: COPY and MOVE of any number of files into a folder, where none of the names is taken.  Each file is there with the bytes of its
source, the sources are kept by COPY and gone after MOVE, no other file has changed, no question was asked, and the level is 0. -/
theorem C60_into_folder_partial (es : Disk → List Char → List IoEv) (hes : FlowsWell es) (dirs : List Char → Bool) (words : AskWords) (hw : ClearWords words)
    (full : List Char → List Char) (search deep : List Char → List (List Char)) (stat : List Char → FileStat) (move : Bool)
    (ps : List (List Char × CopyItem)) (hp : ∀ p ∈ ps, CopyText p.1 p.2) (items : List CopyItem) (hi : items = ps.map (·.2))
    (hdeep : .deep ∉ items) (hplus : .plus ∉ items) (hask : .ask ∉ items) (srcs : List (List Char)) (dst : List Char)
    (hn : copyNames items = srcs ++ [dst]) (hne : srcs ≠ []) (hdst : full dst ≠ []) (hs : CopySound items) (hf : ∀ n ∈ srcs, search (full n) ≠ [])
    (f : Disk) (input : List Char) (files : List (List Char)) (hfiles : files = copyTargets full search (fun f => fileHas (stat f)) items)
    (hfolder : dirs (full dst) = true ∨ (full dst).getLast? = some '/')
    (base : List Char → List Char) (hb : ∀ f ∈ files, Base f (base f) ∧ CopyPlain f)
    (hex : ∀ a ∈ files, (f a).isSome) (hfree : ∀ a ∈ files, f (inDir (some (full dst)) (base a)) = none)
    (hdist : (files.map base).Nodup) :
    ∃ f', cmdCopy (diskOps es dirs) words full search deep stat move (ps.map (·.1)) f input = .ok (f', input, 0#32) ∧
      (∀ a ∈ files, f' (inDir (some (full dst)) (base a)) = f a ∧ f' a = if move then none else f a) ∧
      ∀ q, q ∉ files → q ∉ files.map (fun a => inDir (some (full dst)) (base a)) → f' q = f q := by
  have hinj : ∀ u v : List Char, inDir (some (full dst)) u = inDir (some (full dst)) v → u = v := by
    intro u v h
    unfold inDir at h
    simp only at h
    split at h
    · exact List.append_cancel_left h
    · have := List.append_cancel_left h
      exact (List.cons.inj this).2
  have hnd : (files.map fun a => inDir (some (full dst)) (base a)).Nodup := by
    rw [show (fun a => inDir (some (full dst)) (base a)) = (fun b => inDir (some (full dst)) b) ∘ base from rfl, ← List.map_map]
    unfold List.Nodup
    rw [List.pairwise_map]
    exact hdist.imp fun hab h => hab (hinj _ _ h)
  have hndf : files.Nodup := by
    have h := hdist
    unfold List.Nodup at h
    rw [List.pairwise_map] at h
    exact h.imp fun hab h => hab (by rw [h])
  have hsd : ∀ p ∈ files.map (fun a => (a, inDir (some (full dst)) (base a))), ∀ q ∈ files.map (fun a => (a, inDir (some (full dst)) (base a))), p.1 ≠ q.2 := by
    intro p hp q hq h
    obtain ⟨a, ha, rfl⟩ := List.mem_map.1 hp
    obtain ⟨b, hb', rfl⟩ := List.mem_map.1 hq
    have h1 := hex a ha
    simp only at h
    rw [h, hfree b hb'] at h1
    simp at h1
  have hex' : ∀ p ∈ files.map (fun a => (a, inDir (some (full dst)) (base a))), (f p.1).isSome := by
    intro p hp
    obtain ⟨a, ha, rfl⟩ := List.mem_map.1 hp
    exact hex a ha
  have hreg : ∀ p ∈ files.map (fun a => (a, inDir (some (full dst)) (base a))), (diskOps es dirs).isReg f p.2 = false := by
    intro p hp
    obtain ⟨a, ha, rfl⟩ := List.mem_map.1 hp
    simp [diskOps, hfree a ha]
  have hmap2 : (files.map (fun a => (a, inDir (some (full dst)) (base a)))).map (·.2) = files.map fun a => inDir (some (full dst)) (base a) := by
    rw [List.map_map]; rfl
  have hmap1 : (files.map (fun a => (a, inDir (some (full dst)) (base a)))).map (·.1) = files := by
    rw [List.map_map]; exact List.map_id _
  cases move with
  | false =>
    have hpl : copyPlan false (decide (.plus ∈ items)) true (decide (2 ≤ files.length)) (full dst) base = (.copy, fun f => inDir (some (full dst)) (base f)) := by
      simp [copyPlan, hplus]
    obtain ⟨f', g1, g2, g3⟩ := disk_copyAll es hes dirs (files.map (fun a => (a, inDir (some (full dst)) (base a)))) f false hex' hsd (by rw [hmap2]; exact hnd)
    have hd := dialog_fresh words (fun s => (diskOps es dirs).isReg s.1) (CopyKind.copy.op (diskOps es dirs)) input
      (files.map (fun a => (a, inDir (some (full dst)) (base a)))) (f, false) hreg (by rw [hmap2]; exact hnd)
      (fun s a d q hq h => diskOps_keeps_copy es dirs s a d q hq h)
    rw [g1] at hd
    obtain ⟨lvl, h1, h2⟩ := C60_plan_partial (diskOps es dirs) words hw full search deep stat false ps hp items hi hdeep (by simp) hask srcs dst hn hne hdst hs hf
      f input files hfiles true (by simpa [diskOps] using hfolder) (.inl rfl) base hb _ hpl.symm _ _ hd
    have : lvl = 0#32 := h2.2 rfl
    subst this
    refine ⟨f', h1, fun a ha => ⟨g2 _ (List.mem_map_of_mem (f := fun a => (a, inDir (some (full dst)) (base a))) ha), ?_⟩, fun q hq1 hq2 => g3 q (by rw [hmap2]; exact hq2)⟩
    simp only [Bool.false_eq_true, if_false]
    refine g3 a ?_
    rw [hmap2]
    intro h
    obtain ⟨b, hb', h⟩ := List.mem_map.1 h
    have h1 := hex a ha
    rw [← h, hfree b hb'] at h1
    simp at h1
  | true =>
    have hpl : copyPlan true (decide (.plus ∈ items)) true (decide (2 ≤ files.length)) (full dst) base = (.move, fun f => inDir (some (full dst)) (base f)) := by
      simp [copyPlan]
    obtain ⟨f', g1, g2, g3⟩ := disk_moveAll es dirs (files.map (fun a => (a, inDir (some (full dst)) (base a)))) f false hex' hsd (by rw [hmap2]; exact hnd)
      (by rw [hmap1]; exact hndf)
    have hd := dialog_fresh words (fun s => (diskOps es dirs).isReg s.1) (CopyKind.move.op (diskOps es dirs)) input
      (files.map (fun a => (a, inDir (some (full dst)) (base a)))) (f, false) hreg (by rw [hmap2]; exact hnd)
      (fun s a d q hq h => diskOps_keeps es dirs s a d q hq h)
    rw [g1] at hd
    obtain ⟨lvl, h1, h2⟩ := C60_plan_partial (diskOps es dirs) words hw full search deep stat true ps hp items hi hdeep (fun _ => hplus) hask srcs dst hn hne hdst hs hf
      f input files hfiles true (by simpa [diskOps] using hfolder) (.inl rfl) base hb _ hpl.symm _ _ hd
    have : lvl = 0#32 := h2.2 rfl
    subst this
    exact ⟨f', h1, fun a ha => by simpa using g2 _ (List.mem_map_of_mem (f := fun a => (a, inDir (some (full dst)) (base a))) ha),
      fun q hq1 hq2 => g3 q (by rw [hmap1]; exact hq1) (by rw [hmap2]; exact hq2)⟩

/-- End to end: `COPY a + b + … d` and its like, with the questions taken away, give `d` the bytes of all the files, in order; nothing else changes. -/
theorem C60_join_partial (es : Disk → List Char → List IoEv) (hes : FlowsWell es) (dirs : List Char → Bool) (words : AskWords)
    (full : List Char → List Char) (search deep : List Char → List (List Char)) (stat : List Char → FileStat)
    (ps : List (List Char × CopyItem)) (hp : ∀ p ∈ ps, CopyText p.1 p.2) (items : List CopyItem) (hi : items = ps.map (·.2))
    (hdeep : .deep ∉ items) (hplus : .plus ∈ items) (hask : .ask ∈ items) (srcs : List (List Char)) (dst : List Char)
    (hn : copyNames items = srcs ++ [dst]) (hne : srcs ≠ []) (hdst : full dst ≠ []) (hs : CopySound items) (hf : ∀ n ∈ srcs, search (full n) ≠ [])
    (f : Disk) (input : List Char) (files : List (List Char)) (hfiles : files = copyTargets full search (fun f => fileHas (stat f)) items)
    (base : List Char → List Char) (hb : ∀ f ∈ files, Base f (base f) ∧ CopyPlain f)
    (hex : ∀ a ∈ files, (f a).isSome ∧ a ≠ full dst) (hne' : files ≠ []) :
    ∃ f', cmdCopy (diskOps es dirs) words full search deep stat false (ps.map (·.1)) f input = .ok (f', input, 0#32) ∧
      f' (full dst) = some (files.flatMap fun a => (f a).getD []) ∧ ∀ q, q ≠ full dst → f' q = f q := by
  obtain ⟨f', g1, g2, g3⟩ := disk_joinAll es hes dirs (full dst) files f false hex hne'
  have hpl : copyPlan false (decide (.plus ∈ items)) (dirs (full dst) || decide ((full dst).getLast? = some '/')) (decide (2 ≤ files.length)) (full dst) base =
      (.join, fun _ => full dst) := by
    simp [copyPlan, hplus]
  obtain ⟨lvl, h1, h2⟩ := C60_swapped (diskOps es dirs) words full search deep stat false ps hp items hi hdeep (by simp) hask srcs dst hn hne hdst hs hf
    f input files hfiles (dirs (full dst) || decide ((full dst).getLast? = some '/')) (by simp [diskOps]) (.inr (.inl (by simpa using hplus))) base hb _ hpl.symm _ rfl
  simp only at h1 h2
  rw [g1] at h1 h2
  have : lvl = 0#32 := h2.2 rfl
  subst this
  exact ⟨f', h1, by simpa using g2, g3⟩

/-- Violation: the files are not counted rightly when there is one name with two files, or three names or more: without `+` and without a folder, each
file goes onto the one destination, over the file that came before. -/
theorem C60_onto {W : Type} (ops : CopyOps W) (words : AskWords) (full : List Char → List Char)
    (search deep : List Char → List (List Char)) (stat : List Char → FileStat) (move : Bool) (ps : List (List Char × CopyItem))
    (hp : ∀ p ∈ ps, CopyText p.1 p.2) (items : List CopyItem)
    (hi : items = ps.map (·.2)) (hdeep : .deep ∉ items) (hplus : .plus ∉ items) (hask : .ask ∈ items) (srcs : List (List Char))
    (dst : List Char) (hn : copyNames items = srcs ++ [dst]) (hs : CopySound items)
    (hf : ∀ n ∈ srcs, search (full n) ≠ []) (w : W) (input : List Char)
    (files : List (List Char)) (hfiles : files = copyTargets full search (fun f => fileHas (stat f)) items)
    (hfolder : ops.isDir w (full dst) = false ∧ (full dst).getLast? ≠ some '/')
    (hcount : (srcs.length = 1 ∧ files.length = 2) ∨ (3 ≤ srcs.length ∧ 2 ≤ files.length))
    (r : (W × Bool) × Bool) (hr : r = copyAll ((if move then CopyKind.move else CopyKind.copy).op ops) (w, false) (files.map fun f => (f, full dst))) :
    ∃ lvl, cmdCopy ops words full search deep stat move (ps.map (·.1)) w input = .ok (r.1.1, input, lvl) ∧ (lvl = 0#32 ↔ r.2 = true) := by
  have hne : srcs ≠ [] := by rintro rfl; simp at hcount
  have h3 : decide (copyCount (files.length - 1) srcs.length = 3) = false := by
    rcases hcount with ⟨h1, h2⟩ | ⟨h1, h2⟩
    · rw [h1, h2, copyCount_one]; rfl
    · rw [copyCount_many _ _ h1 (by omega)]
      simp only [decide_eq_false_iff_not]
      omega
  rw [cmdCopy_each ops words full search deep stat move ps hp items hi hdeep (fun _ => hplus) srcs dst hn hne hs hf w input files hfiles _ rfl false _
    (by simp [hfolder]) rfl]
  rw [h3]
  obtain ⟨fl', st', h1, h2⟩ := copyEach_all ops words (full dst) (if move then CopyKind.move else CopyKind.copy) (files.map fun f => (f, full dst)) w input
    ⟨decide (.ask ∈ items), false || (false && move), move, false, decide (.plus ∈ items) || (false && !false && !move), false⟩ 0#32 (by simpa using hask)
    (by cases move <;> simp [copyKindOf, hplus]) (by
      intro p hp
      obtain ⟨a, _, rfl⟩ := List.mem_map.1 hp
      exact copyReal_flat _ (.inl (by simp)) _ _)
  rw [List.map_map, show ((fun x : List Char × List Char => x.1) ∘ fun f => (f, full dst)) = id from rfl, List.map_id] at h1
  rw [h1, Res.ok_bind]
  subst hr
  exact ⟨st', rfl, by simpa using h2⟩

/-- COPY (questions taken away) of `x*` to `d` where two files match: only the second one is in `d`, with level 0; `MOVE` loses the first one altogether. -/
theorem C60_lost (es : Disk → List Char → List IoEv) (hes : FlowsWell es) (dirs : List Char → Bool) (words : AskWords) (full : List Char → List Char)
    (search deep : List Char → List (List Char)) (stat : List Char → FileStat) (n d a b x y : List Char) (hn : CopyText n (.name n))
    (hd : CopyText d (.name d)) (hsearch : search (full n) = [a, b]) (hst : (stat a).dir = false ∧ (stat b).dir = false)
    (hfolder : dirs (full d) = false ∧ (full d).getLast? ≠ some '/') (f : Disk) (hx : f a = some x) (hy : f b = some y) (had : a ≠ full d)
    (hbd : b ≠ full d) (hab : a ≠ b) (input : List Char) :
    (∃ f', cmdCopy (diskOps es dirs) words full search deep stat false ["/-Y".toList, n, d] f input = .ok (f', input, 0#32) ∧ f' (full d) = some y) ∧
    (∃ f', cmdCopy (diskOps es dirs) words full search deep stat true ["/-Y".toList, n, d] f input = .ok (f', input, 0#32) ∧ f' (full d) = some y ∧
      ∀ q, q ≠ full d → f' q = if q = a ∨ q = b then none else f q) := by
  have hp : ∀ p ∈ [("/-Y".toList, CopyItem.ask), (n, .name n), (d, .name d)], CopyText p.1 p.2 := by
    intro p hp
    simp only [List.mem_cons, List.not_mem_nil, or_false] at hp
    rcases hp with rfl | rfl | rfl
    · exact .ask (by decide)
    · exact hn
    · exact hd
  have hfiles : [a, b] = copyTargets full search (fun f => fileHas (stat f)) [CopyItem.ask, .name n, .name d] := by
    simp [copyTargets, copyNames, copySel, hsearch, fileHas, hst]
  have hs : CopySound [CopyItem.ask, .name n, .name d] := ⟨by simp [copySel], by simp [copySel], by simp [copySel]⟩
  have key := fun move => C60_onto (diskOps es dirs) words full search deep stat move [("/-Y".toList, CopyItem.ask), (n, .name n), (d, .name d)] hp
    [CopyItem.ask, .name n, .name d] rfl (by simp) (by simp) (by simp) [n] d rfl hs (by simp [hsearch]) f input [a, b] hfiles hfolder (.inl ⟨rfl, rfl⟩) _ rfl
  constructor
  · obtain ⟨f1, g1, g2, g3⟩ := C59_copy_ends (es f a) f a (full d) x hx had (hes f a x hx).1 (hes f a x hx).2
    have hy1 : f1 b = some y := by rw [g3 b hbd, hy]
    obtain ⟨f2, k1, k2, k3⟩ := C59_copy_ends (es f1 b) f1 b (full d) y hy1 hbd (hes f1 b y hy1).1 (hes f1 b y hy1).2
    obtain ⟨lvl, h1, h2⟩ := key false
    have he : copyAll ((if false then CopyKind.move else CopyKind.copy).op (diskOps es dirs)) (f, false) ([a, b].map fun f => (f, full d)) = ((f2, false), true) := by
      simp [copyAll, CopyKind.op, diskOps, g1, k1]
    rw [he] at h1 h2
    have : lvl = 0#32 := h2.2 rfl
    subst this
    exact ⟨f2, h1, k2⟩
  · obtain ⟨f1, g1, g2, g3, g4⟩ := C59_move f a (full d) x hx had
    have hy1 : f1 b = some y := by rw [g4 b hab.symm hbd, hy]
    obtain ⟨f2, k1, k2, k3, k4⟩ := C59_move f1 b (full d) y hy1 hbd
    obtain ⟨lvl, h1, h2⟩ := key true
    have he : copyAll ((if true then CopyKind.move else CopyKind.copy).op (diskOps es dirs)) (f, false) ([a, b].map fun f => (f, full d)) = ((f2, false), true) := by
      simp [copyAll, CopyKind.op, diskOps, g1, k1]
    rw [he] at h1 h2
    have : lvl = 0#32 := h2.2 rfl
    subst this
    refine ⟨f2, h1, k2, fun q hq => ?_⟩
    by_cases hqb : q = b
    · rw [if_pos (.inr hqb), hqb, k3]
    · by_cases hqa : q = a
      · rw [if_pos (.inl hqa), hqa, k4 a hab had, g3]
      · rw [if_neg (by simp [hqa, hqb]), k4 q hqb hq, g4 q hqa hq]

/-- Violation: the option slash Y, "do not ask", changes nothing: with an existing destination the question comes, and an empty line keeps the
destination as it was. -/
theorem C60_asked {W : Type} (ops : CopyOps W) (words : AskWords) (hw : ClearWords words) (full : List Char → List Char)
    (search deep : List Char → List (List Char)) (stat : List Char → FileStat) (move : Bool) (n d a b : List Char) (hn : CopyText n (.name n))
    (hd : CopyText d (.name d)) (hsearch : search (full n) = [a]) (hst : (stat a).dir = false) (hb : Base a b) (ha : CopyPlain a) (w : W) (hdne : full d ≠ [])
    (hfolder : ops.isDir w (full d) = false ∧ (full d).getLast? ≠ some '/') (hreg : ops.isReg w (full d) = true) (rest : List Char) :
    cmdCopy ops words full search deep stat move ["/Y".toList, n, d] w ('\n' :: rest) = .ok (w, rest, 0#32) := by
  have hp : ∀ p ∈ [("/Y".toList, CopyItem.quiet), (n, .name n), (d, .name d)], CopyText p.1 p.2 := by
    intro p hp
    simp only [List.mem_cons, List.not_mem_nil, or_false] at hp
    rcases hp with rfl | rfl | rfl
    · exact .quiet (by decide)
    · exact hn
    · exact hd
  have hfiles : [a] = copyTargets full search (fun f => fileHas (stat f)) [CopyItem.quiet, .name n, .name d] := by
    simp [copyTargets, copyNames, copySel, hsearch, fileHas, hst]
  have hs : CopySound [CopyItem.quiet, .name n, .name d] := ⟨by simp [copySel], by simp [copySel], by simp [copySel]⟩
  have hpl : copyPlan move false false (decide (2 ≤ [a].length)) (full d) (fun _ => b) = ((if move then .move else .copy), fun _ => full d) := by
    cases move <;> simp [copyPlan]
  obtain ⟨lvl, h1, h2⟩ := C60_plan_partial ops words hw full search deep stat move [("/Y".toList, CopyItem.quiet), (n, .name n), (d, .name d)] hp
    [CopyItem.quiet, .name n, .name d] rfl (by simp) (by simp) (by simp) [n] d rfl (by simp) hdne hs (by simp [hsearch]) w ('\n' :: rest) [a] hfiles false
    (by simp [hfolder]) (.inr (.inr (.inl (by simp)))) (fun _ => b) (by simp [hb, ha]) _ (by simpa using hpl.symm) ((w, false), true) rest
    (.no hreg ⟨[], by simp, rfl, rfl⟩ (.inr rfl) .nil)
  have : lvl = 0#32 := h2.2 rfl
  subst this
  exact h1

/-- Violation: when files are joined, the question comes for each file after the first, as the destination exists by then.  `COPY a + b d` with an empty
line: `d`, which did not exist, has the bytes of `a` only. -/
theorem C60_asks_again (es : Disk → List Char → List IoEv) (hes : FlowsWell es) (dirs : List Char → Bool) (words : AskWords) (hw : ClearWords words)
    (full : List Char → List Char) (search deep : List Char → List (List Char)) (stat : List Char → FileStat) (m n d a b x y : List Char)
    (hm : CopyText m (.name m)) (hn : CopyText n (.name n)) (hd : CopyText d (.name d)) (hsm : search (full m) = [a]) (hsn : search (full n) = [b])
    (hst : (stat a).dir = false ∧ (stat b).dir = false) (hdne : full d ≠ []) (base : List Char → List Char) (hb : ∀ f ∈ [a, b], Base f (base f) ∧ CopyPlain f)
    (f : Disk) (hx : f a = some x) (hy : f b = some y) (hfd : f (full d) = none) (rest : List Char) :
    ∃ f', cmdCopy (diskOps es dirs) words full search deep stat false [m, ['+'], n, d] f ('\n' :: rest) = .ok (f', rest, 0#32) ∧
      f' (full d) = some x := by
  have had : a ≠ full d := by rintro rfl; rw [hx] at hfd; simp at hfd
  have hp : ∀ p ∈ [(m, CopyItem.name m), (['+'], .plus), (n, .name n), (d, .name d)], CopyText p.1 p.2 := by
    intro p hp
    simp only [List.mem_cons, List.not_mem_nil, or_false] at hp
    rcases hp with rfl | rfl | rfl | rfl
    · exact hm
    · exact .plus
    · exact hn
    · exact hd
  have hfiles : [a, b] = copyTargets full search (fun f => fileHas (stat f)) [CopyItem.name m, .plus, .name n, .name d] := by
    simp [copyTargets, copyNames, copySel, hsm, hsn, fileHas, hst]
  have hs : CopySound [CopyItem.name m, .plus, .name n, .name d] := ⟨by simp [copySel], by simp [copySel], by simp [copySel]⟩
  have hpl : copyPlan false true (dirs (full d) || decide ((full d).getLast? = some '/')) (decide (2 ≤ [a, b].length)) (full d) base = (.join, fun _ => full d) := by
    simp [copyPlan]
  obtain ⟨f1, g1, g2, g3⟩ := C59_cat_ends (es f a) f a (full d) x false hx had (hes f a x hx).1 (hes f a x hx).2
  have hop : CopyKind.join.op (diskOps es dirs) (f, false) a (full d) = ((f1, true), true) := by
    simp only [CopyKind.op, diskOps, g1, Option.elim_some]
    rfl
  have hdia : CopyDialog words (fun s => (diskOps es dirs).isReg s.1) (CopyKind.join.op (diskOps es dirs)) (f, false)
      ([a, b].map fun g => (g, full d)) ('\n' :: rest) ((f1, true), (CopyKind.join.op (diskOps es dirs) (f, false) a (full d)).2 && true) rest := by
    refine CopyDialog.fresh (r := ((f1, true), true)) (by simp [diskOps, hfd]) ?_
    rw [hop]
    exact .no (by simp [diskOps, g2]) ⟨[], by simp, rfl, rfl⟩ (.inr rfl) .nil
  obtain ⟨lvl, h1, h2⟩ := C60_plan_partial (diskOps es dirs) words hw full search deep stat false [(m, CopyItem.name m), (['+'], .plus), (n, .name n), (d, .name d)] hp
    [CopyItem.name m, .plus, .name n, .name d] rfl (by simp) (by simp) (by simp) [m, n] d rfl (by simp) hdne hs (by simp [hsm, hsn]) f ('\n' :: rest) [a, b] hfiles
    (dirs (full d) || decide ((full d).getLast? = some '/')) (by simp [diskOps]) (.inr (.inl (by simp))) base hb _ (by simpa using hpl.symm) _ rest hdia
  have : lvl = 0#32 := h2.2 (by rw [hop]; rfl)
  subst this
  exact ⟨f1, h1, by simpa using g2⟩

/-- Violation: a name that begins with `/a` is not a name for COPY and MOVE: `COPY /app/x y` has one name only. -/
theorem C60_slash_a {W : Type} (ops : CopyOps W) (words : AskWords) (full : List Char → List Char) (search deep : List Char → List (List Char))
    (stat : List Char → FileStat) (move : Bool) (n d : List Char) (hd : CopyText d (.name d)) (w : W) (input : List Char) :
    cmdCopy ops words full search deep stat move ['/' :: 'a' :: n, d] w input = .ok (w, input, 8#32) := by
  have h1 : ∀ fl attr, copyParams full [d] fl attr [] = .args fl attr [full d] := by
    intro fl attr
    have := copyParams_items full [(d, .name d)] fl attr [] (by simpa using hd) (by simp)
    simpa [copyState, copyAttr, copyNames] using this
  unfold cmdCopy
  rw [copyParams, if_neg, if_pos (by rw [prefixI_iff]; exact ⟨fold n, rfl⟩), h1]
  · rfl
  · simp only [stricmp_zero]
    rintro (h | h) <;> simp [fold] at h

/-- Violation: `COPY d e` where `d` is a directory does nothing, and the level is 0. -/
theorem C60_directory {W : Type} (ops : CopyOps W) (words : AskWords) (full : List Char → List Char) (search deep : List Char → List (List Char))
    (stat : List Char → FileStat) (move : Bool) (n d a : List Char) (hn : CopyText n (.name n)) (hd : CopyText d (.name d)) (hsn : search (full n) = [a])
    (hst : (stat a).dir = true) (w : W) (input : List Char) :
    cmdCopy ops words full search deep stat move [n, d] w input = .ok (w, input, 0#32) := by
  have hp : ∀ p ∈ [(n, CopyItem.name n), (d, .name d)], CopyText p.1 p.2 := by
    intro p hp
    simp only [List.mem_cons, List.not_mem_nil, or_false] at hp
    rcases hp with rfl | rfl
    · exact hn
    · exact hd
  have hfiles : [] = copyTargets full search (fun f => fileHas (stat f)) [CopyItem.name n, .name d] := by
    simp [copyTargets, copyNames, copySel, hsn, fileHas, hst]
  have hs : CopySound [CopyItem.name n, .name d] := ⟨by simp [copySel], by simp [copySel], by simp [copySel]⟩
  have := cmdCopy_each ops words full search deep stat move _ hp [CopyItem.name n, .name d] rfl (by simp) (by simp) [n] d rfl (by simp) hs (by simp [hsn]) w input [] hfiles _ rfl
    (ops.isDir w (full d) || decide ((full d).getLast? = some '/')) _ (by simp) rfl
  simp only [List.map_cons, List.map_nil] at this
  rw [this]
  rfl

/-- Answers of the system that flow well. -/
def oneByOne (f : Disk) (a : List Char) : List IoEv := List.replicate (2 * ((f a).getD []).length + 1) (.n 1)

theorem oneByOne_flows : FlowsWell oneByOne := by
  intro f a x hx
  unfold oneByOne
  rw [hx]
  refine ⟨fun e he => ⟨0, ?_⟩, by simp⟩
  exact (List.mem_replicate.1 he).2

/-- A case meeting the hypotheses of `C60_into_folder_partial` (and so of `C60_plan_partial`): `MOVE p/x y d/`. -/
example (f : Disk) (hx : (f ['p', '/', 'x']).isSome) (hy : (f ['y']).isSome) (hdx : f ['d', '/', 'x'] = none) (hdy : f ['d', '/', 'y'] = none) (input : List Char) :
    ∃ f', cmdCopy (diskOps oneByOne fun _ => false) english id (fun n => [n]) (fun _ => []) (fun _ => ⟨true, false, false, false, false, 1⟩) true
      [['p', '/', 'x'], ['y'], ['d', '/']] f input = .ok (f', input, 0#32) ∧ f' ['d', '/', 'x'] = f ['p', '/', 'x'] ∧ f' ['y'] = none := by
  have hname : ∀ n ∈ [['p', '/', 'x'], ['y'], ['d', '/']], CopyText n (.name n) := by
    intro n hn
    simp only [List.mem_cons, List.not_mem_nil, or_false] at hn
    rcases hn with rfl | rfl | rfl <;> exact .name (by decide) (by decide) (by decide) (by decide)
  obtain ⟨f', h1, h2, -⟩ := C60_into_folder_partial oneByOne oneByOne_flows (fun _ => false) english english_clear id (fun n => [n]) (fun _ => [])
    (fun _ => ⟨true, false, false, false, false, 1⟩) true [(['p', '/', 'x'], .name ['p', '/', 'x']), (['y'], .name ['y']), (['d', '/'], .name ['d', '/'])]
    (by
      intro p hp
      simp only [List.mem_cons, List.not_mem_nil, or_false] at hp
      rcases hp with rfl | rfl | rfl <;> exact hname _ (by simp))
    _ rfl (by decide) (by decide) (by decide) [['p', '/', 'x'], ['y']] ['d', '/'] rfl (by simp) (by simp) ⟨by simp [copySel], by simp [copySel], by simp [copySel]⟩
    (by simp) f input [['p', '/', 'x'], ['y']] (by decide) (.inr (by decide)) (fun a => if a = ['y'] then ['y'] else ['x'])
    (by
      intro g hg
      simp only [List.mem_cons, List.not_mem_nil, or_false] at hg
      rcases hg with rfl | rfl
      · exact ⟨⟨['p', '/'], rfl, .inr rfl, by decide⟩, ⟨by decide, by rw [← driveOf_none]; decide, by decide, by decide⟩⟩
      · exact ⟨⟨[], rfl, .inl rfl, by decide⟩, ⟨by decide, by rw [← driveOf_none]; decide, by decide, by decide⟩⟩)
    (by simp [hx, hy]) (by
      intro a ha
      simp only [List.mem_cons, List.not_mem_nil, or_false] at ha
      rcases ha with rfl | rfl
      · exact hdx
      · exact hdy) (by decide)
  exact ⟨f', h1, (h2 ['p', '/', 'x'] (by simp)).1, (h2 ['y'] (by simp)).2⟩

end PBat
