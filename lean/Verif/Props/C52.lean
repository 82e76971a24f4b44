import Verif.Model.Del
import Verif.Spec.Del
import Verif.Lemmas.If
import Verif.Lemmas.ReplaceI
import Verif.Props.C34
/-
C52: DEL.
-/
namespace PBat
open Spec

/-- Reading a line typed. -/
theorem askReadLoop_line : ∀ (l r : List Char) (b : Bool), '\n' ∉ l →
    askReadLoop b (l ++ '\n' :: r) = .ok (l.filter (· ≠ '\r'), r)
  | [], r, b, _ => by simp [askReadLoop]
  | c :: l, r, b, h => by
    simp only [List.mem_cons, not_or] at h
    rw [List.cons_append, askReadLoop.eq_2, if_neg (fun hc => h.1 hc.symm), askReadLoop_line l r true h.2]
    simp only [Res.ok_bind, List.filter_cons]
    by_cases hc : c = '\r' <;> simp [hc]

/-- Reading at the end of input: no line ends. -/
theorem askReadLoop_eof : ∀ (l : List Char) (b : Bool), '\n' ∉ l →
    askReadLoop b l = if b = true ∨ l ≠ [] then .hang else .ub
  | [], b, _ => by cases b <;> simp [askReadLoop]
  | c :: l, b, h => by
    simp only [List.mem_cons, not_or] at h
    rw [askReadLoop.eq_2, if_neg (fun hc => h.1 hc.symm), askReadLoop_eof l true h.2]
    simp [Res.hang_bind]

theorem askRead_typed {i t r : List Char} (h : Typed i t r) : askRead i = .ok (t.take 29, r) := by
  obtain ⟨l, hl, rfl, rfl⟩ := h
  unfold askRead
  rw [askReadLoop_line l r false hl, Res.ok_bind]

theorem fold_len (t : List Char) : (fold t).length = t.length := by simp [fold]

theorem take_says {a b t : List Char} (ha : a.length < 30) (hb : b.length < 30) (h : Says a b t) :
    t.take 29 = t ∧ (stricmp t a = 0 ∨ stricmp t b = 0) := by
  constructor
  · rcases h with h | h <;>
    · have := congrArg List.length h
      rw [fold_len, fold_len] at this
      exact List.take_of_length_le (by omega)
  · rw [stricmp_zero, stricmp_zero]; exact h

/-- The question of DEL, answered. -/
theorem ask_yes {w : AskWords} {yna : Bool} (hw : ClearWords w) {i t r : List Char} (h : Typed i t r) (ht : Says w.yes w.yesA t) :
    askConfirmation w yna 2 true i = .ok (1, r) := by
  have h1 := (hw.ne w.yes (by simp)).2
  have h2 := (hw.ne w.yesA (by simp)).2
  obtain ⟨e, hs⟩ := take_says h1 h2 ht
  unfold askConfirmation
  rw [askRead_typed h, Res.ok_bind]
  simp only [e, if_pos hs]

theorem ask_no {w : AskWords} {yna : Bool} (hw : ClearWords w) {i t r : List Char} (h : Typed i t r) (ht : Says w.no w.noA t ∨ t = []) :
    askConfirmation w yna 2 true i = .ok (2, r) := by
  unfold askConfirmation
  rw [askRead_typed h, Res.ok_bind]
  rcases ht with ht | rfl
  · obtain ⟨e, hs⟩ := take_says (hw.ne w.no (by simp)).2 (hw.ne w.noA (by simp)).2 ht
    have hy : ¬ (stricmp t w.yes = 0 ∨ stricmp t w.yesA = 0) := by
      rw [stricmp_zero, stricmp_zero]
      exact fun hh => hw.yn t hh ht
    simp only [e, if_neg hy, if_pos hs]
  · have hne : ∀ x ∈ [w.yes, w.yesA, w.no, w.noA, w.all, w.allA], ¬ stricmp [] x = 0 := by
      intro x hx h0
      rw [stricmp_zero] at h0
      have := congrArg List.length h0
      rw [fold_len, fold_len] at this
      exact (hw.ne x hx).1 (List.length_eq_zero_iff.1 this.symm)
    simp only [List.take_nil, hne w.yes (by simp), hne w.yesA (by simp), hne w.no (by simp), hne w.noA (by simp), hne w.all (by simp),
      hne w.allA (by simp)]
    simp

theorem ask_all {w : AskWords} (hw : ClearWords w) {i t r : List Char} (h : Typed i t r) (ht : Says w.all w.allA t) :
    askConfirmation w true 2 true i = .ok (4, r) := by
  unfold askConfirmation
  rw [askRead_typed h, Res.ok_bind]
  obtain ⟨e, hs⟩ := take_says (hw.ne w.all (by simp)).2 (hw.ne w.allA (by simp)).2 ht
  have hy : ¬ (stricmp t w.yes = 0 ∨ stricmp t w.yesA = 0) := by
    rw [stricmp_zero, stricmp_zero]
    exact fun hh => hw.ya t hh ht
  have hn : ¬ (stricmp t w.no = 0 ∨ stricmp t w.noA = 0) := by
    rw [stricmp_zero, stricmp_zero]
    exact fun hh => hw.na t hh ht
  simp only [e, if_neg hy, if_neg hn, if_pos hs, true_and]

/-- The error level of files removed. -/
def delLevel (b : Bool) : Int := if b then 0 else -1

theorem delLevel_and (a b : Bool) : (if a then delLevel b else -1) = delLevel (a && b) := by cases a <;> simp [delLevel]

/-- Without questions every file is removed. -/
theorem delFiles_all {W : Type} (sys : DelSys W) (words : AskWords) (ask : Bool) : ∀ (fs : List (List Char)) (w : W) (i : List Char),
    delFiles sys words ask 4 fs w i = .ok ((removeAll sys.remove w fs).1, i, delLevel (removeAll sys.remove w fs).2)
  | [], w, i => by simp [delFiles, removeAll, delLevel]
  | f :: fs, w, i => by
    unfold delFiles
    simp only [show ¬ ((4 : Int) = 0) by decide, false_and, if_false, Res.ok_bind, true_or, if_true]
    rw [delFiles_all sys words ask fs]
    simp only [Res.ok_bind, removeAll, delLevel_and]

/-- With questions the files confirmed are removed. -/
theorem delFiles_ask {W : Type} (sys : DelSys W) {words : AskWords} (hw : ClearWords words) {fs ys : List (List Char)} {i rest : List Char}
    (h : Confirmed words fs i ys rest) : ∀ w : W,
    delFiles sys words true 0 fs w i = .ok ((removeAll sys.remove w ys).1, rest, delLevel (removeAll sys.remove w ys).2) := by
  induction h with
  | nil => intro w; simp [delFiles, removeAll, delLevel]
  | yes ht hs _ ih =>
    intro w
    unfold delFiles
    simp only [and_self, if_true, ask_yes hw ht hs, Res.ok_bind, show ¬ ((1 : Int) = 4) by decide, false_or, true_and,
      if_false]
    rw [ih]
    simp only [Res.ok_bind, removeAll, delLevel_and]
  | no ht hs _ ih =>
    intro w
    unfold delFiles
    simp only [and_self, if_true, ask_no hw ht hs, Res.ok_bind, show ¬ ((2 : Int) = 4) by decide, show ¬ ((2 : Int) = 1) by decide, or_self,
      true_and, if_false]
    exact ih w
  | all ht hs =>
    intro w
    unfold delFiles
    simp only [and_self, if_true, ask_all hw ht hs, Res.ok_bind, true_or]
    rw [delFiles_all]
    simp only [Res.ok_bind, removeAll, delLevel_and]

/-- The state after the items. -/
def delState (full : List Char → List Char) (d : DelParams) (items : List DelItem) : DelParams :=
  { ask := d.ask || decide (DelItem.prompt ∈ items) || decide (DelItem.recursive ∈ items)
    force := d.force || decide (DelItem.force ∈ items)
    recursive := d.recursive || decide (DelItem.recursive ∈ items)
    quiet := d.quiet || decide (DelItem.quiet ∈ items)
    attr := ((items.filterMap fun | .attrs l => some l | _ => none).getLast?.map flagsOf).getD d.attr
    names := d.names ++ (delNames items).map full }

theorem fold_two {t : List Char} {s : List Char} (h : fold t = s) (u : List Char) (hu : fold u ≠ s) : ¬ stricmp t u = 0 := by
  rw [stricmp_zero, h]; exact fun hh => hu hh.symm

theorem makeAttr_text {s : List Char} {l : List (Attr × Bool)} (h : AttrText s l) : makeFileAttributes s = flagsOf l := by
  unfold makeFileAttributes
  rw [makeAttrLoop_text h, BitVec.zero_or]

theorem lower_slash {c : Char} (h : c.toLower = '/') : c = '/' := by
  unfold Char.toLower at h
  split at h
  · rename_i hc
    exfalso
    have h2 := congrArg (fun c : Char => c.val.toNat) h
    simp only [UInt32.toNat_add] at h2
    have := hc.1; have := hc.2
    simp only [UInt32.le_iff_toNat_le] at *
    revert h2
    rw [show (('a'.val - 'A'.val).toNat) = 32 by decide, show ('/' : Char).val.toNat = 47 by decide]
    have h3 : ('A' : Char).val.toNat = 65 := by decide
    have h4 : ('Z' : Char).val.toNat = 90 := by decide
    omega
  · exact h

theorem fold_slash {n x : List Char} (hn : n.head? ≠ some '/') : fold n ≠ '/' :: x := by
  cases n with
  | nil => simp [fold]
  | cons c s =>
    intro h
    simp only [fold, List.map_cons, List.cons.injEq] at h
    exact hn (by simp [lower_slash h.1])

theorem delParam_item (full : List Char → List Char) (d : DelParams) {t : List Char} {it : DelItem} (h : DelText t it) :
    delParam full d t = some (delState full d [it]) := by
  cases h with
  | prompt h =>
    unfold delParam
    rw [if_pos (by rw [stricmp_zero, h]; decide)]
    simp [delState, delNames]
  | force h =>
    unfold delParam
    rw [if_neg (fold_two h _ (by decide)), if_pos (by rw [stricmp_zero, h]; decide)]
    simp [delState, delNames]
  | recursive h =>
    unfold delParam
    rw [if_neg (fold_two h _ (by decide)), if_neg (fold_two h _ (by decide)), if_pos (by rw [stricmp_zero, h]; decide)]
    simp [delState, delNames]
  | quiet h =>
    unfold delParam
    rw [if_neg (fold_two h _ (by decide)), if_neg (fold_two h _ (by decide)), if_neg (fold_two h _ (by decide)),
      if_pos (by rw [stricmp_zero, h]; decide)]
    simp [delState, delNames]
  | @attrs a s l ha hl =>
    have hne : ∀ u : List Char, (∃ c, fold u = ['/', c] ∧ c ≠ 'a') → ¬ stricmp ('/' :: a :: s) u = 0 := by
      rintro u ⟨c, hu, hc⟩ h0
      rw [stricmp_zero, hu] at h0
      simp only [fold, List.map_cons, List.cons.injEq] at h0
      apply hc
      rw [← h0.2.1]
      rcases ha with rfl | rfl <;> decide
    have hp : prefixI "/A".toList ('/' :: a :: s) = true := by
      rcases ha with rfl | rfl <;> simp [prefixI]
    have hd : ¬ s.head? = some ':' := by
      cases hl with
      | nil => simp
      | present hl hc _ => cases hl <;> intro h0 <;> simp only [List.head?_cons, Option.some.injEq] at h0 <;> subst h0 <;> revert hc <;> decide
      | absent _ _ _ => simp
    unfold delParam
    rw [if_neg (hne _ ⟨'p', by decide, by decide⟩), if_neg (hne _ ⟨'f', by decide, by decide⟩), if_neg (hne _ ⟨'s', by decide, by decide⟩),
      if_neg (hne _ ⟨'q', by decide, by decide⟩), if_pos hp]
    simp only [List.drop_succ_cons, List.drop_zero, if_neg hd, makeAttr_text hl]
    simp [delState, delNames]
  | @attrs' a s l ha hl =>
    have hne : ∀ u : List Char, (∃ c, fold u = ['/', c] ∧ c ≠ 'a') → ¬ stricmp ('/' :: a :: ':' :: s) u = 0 := by
      rintro u ⟨c, hu, hc⟩ h0
      rw [stricmp_zero, hu] at h0
      simp only [fold, List.map_cons, List.cons.injEq] at h0
      apply hc
      rw [← h0.2.1]
      rcases ha with rfl | rfl <;> decide
    have hp : prefixI "/A".toList ('/' :: a :: ':' :: s) = true := by
      rcases ha with rfl | rfl <;> simp [prefixI]
    unfold delParam
    rw [if_neg (hne _ ⟨'p', by decide, by decide⟩), if_neg (hne _ ⟨'f', by decide, by decide⟩), if_neg (hne _ ⟨'s', by decide, by decide⟩),
      if_neg (hne _ ⟨'q', by decide, by decide⟩), if_pos hp]
    simp only [List.drop_succ_cons, List.drop_zero, List.head?_cons, if_true, makeAttr_text hl]
    simp [delState, delNames]
  | name hn =>
    have hne : ∀ u : List Char, u.head? = some '/' → ¬ stricmp t u = 0 := by
      intro u hu h0
      cases u with
      | nil => simp at hu
      | cons c u =>
        simp only [List.head?_cons, Option.some.injEq] at hu
        subst hu
        rw [stricmp_zero] at h0
        exact fold_slash hn h0
    have hp : ¬ prefixI "/A".toList t = true := by
      rw [prefixI_iff]
      rintro ⟨u, hu⟩
      exact fold_slash hn hu.symm
    unfold delParam
    rw [if_neg (hne _ rfl), if_neg (hne _ rfl), if_neg (hne _ rfl), if_neg (hne _ rfl), if_neg hp,
      if_neg (fun h0 => hn (by rw [h0]; rfl))]
    simp [delState, delNames]

theorem delState_cons (full : List Char → List Char) (d : DelParams) (it : DelItem) (items : List DelItem) :
    delState full (delState full d [it]) items = delState full d (it :: items) := by
  have hl : ∀ (a : Option (List (Attr × Bool))) (l : List (List (Attr × Bool))) (x : BitVec 16),
      (l.getLast?.map flagsOf).getD ((a.map flagsOf).getD x) = (((a.toList ++ l).getLast?).map flagsOf).getD x := by
    intro a l x
    rw [List.getLast?_append]
    cases l.getLast? <;> cases a <;> simp
  cases it <;> simp [delState, delNames, Bool.or_assoc, Bool.or_comm, Bool.or_left_comm]
  rename_i l
  have := hl (some l) (items.filterMap fun | .attrs l => some l | _ => none) d.attr
  simpa using this

theorem delParams_items (full : List Char → List Char) : ∀ (ps : List (List Char × DelItem)) (d : DelParams), (∀ p ∈ ps, DelText p.1 p.2) →
    delParams full (ps.map (·.1)) d = some (delState full d (ps.map (·.2)))
  | [], d, _ => by simp [delParams, delState, delNames]
  | p :: ps, d, h => by
    rw [List.map_cons, delParams, delParam_item full d (h p (by simp)), Option.bind_some,
      delParams_items full ps _ (fun q hq => h q (by simp [hq])), List.map_cons, delState_cons]

theorem delSearch_found {F : Type} (search : Bool → List Char → List F) (r : Bool) : ∀ ns : List (List Char), (∀ n ∈ ns, search r n ≠ []) →
    delSearch search r ns = some (ns.flatMap (search r))
  | [], _ => rfl
  | n :: ns, h => by
    rw [delSearch, if_neg (h n (by simp)), delSearch_found search r ns (fun m hm => h m (by simp [hm]))]
    rfl

theorem delSearch_missing {F : Type} (search : Bool → List Char → List F) (r : Bool) : ∀ ns : List (List Char), (∃ n ∈ ns, search r n = []) →
    delSearch search r ns = none
  | [], h => by simp at h
  | n :: ns, h => by
    rw [delSearch]
    by_cases hn : search r n = []
    · rw [if_pos hn]
    · rw [if_neg hn, delSearch_missing search r ns]
      · rfl
      · obtain ⟨m, hm, h0⟩ := h
        rcases List.mem_cons.1 hm with rfl | hm
        · exact absurd h0 hn
        · exact ⟨m, hm, h0⟩

/-- A file DEL may remove: not a directory, not read-only unless the removal is forced, and with the attributes asked for. -/
def Spec.Eligible (items : List DelItem) (f : FileStat) : Prop :=
  f.dir = false ∧ (.force ∈ items ∨ f.readonly = false) ∧ ∀ p ∈ delSel items, fileHas f p.1 = p.2

instance (items f) : Decidable (Eligible items f) := by unfold Eligible; infer_instance

/-- A selection of attributes the filters treat properly (`C34_filter_partial`), and for which read-only files need no other test. -/
structure Spec.SoundSel (items : List DelItem) : Prop where
  both : ∀ a, ¬ ((a, true) ∈ delSel items ∧ (a, false) ∈ delSel items)
  neg : (Attr.system, false) ∉ delSel items ∧ (Attr.void, false) ∉ delSel items
  hid : (Attr.hidden, false) ∈ delSel items → (Attr.system, true) ∉ delSel items ∧ (Attr.void, true) ∉ delSel items
  ro : delSel items = [] ∨ .force ∈ items ∨ (Attr.readonly, false) ∈ delSel items

theorem flagsOf_eq_zero {l : List (Attr × Bool)} : flagsOf l = 0#16 ↔ l = [] := by
  cases l with
  | nil => simp [flagsOf]
  | cons p l =>
    simp only [reduceCtorEq, iff_false]
    intro h
    have := hasFlag_flags p.1 (p :: l)
    rw [h] at this
    simp [hasFlag] at this

theorem check_flags (l : List (Attr × Bool)) (f : FileStat)
    (hboth : ∀ a, ¬ ((a, true) ∈ l ∧ (a, false) ∈ l))
    (hneg : (Attr.system, false) ∉ l ∧ (Attr.void, false) ∉ l)
    (hhid : (Attr.hidden, false) ∈ l → (Attr.system, true) ∉ l ∧ (Attr.void, true) ∉ l) :
    checkFileAttributes (flagsOf l) f = true ↔ ∀ p ∈ l, fileHas f p.1 = p.2 := by
  have ht : ∃ s, AttrText s l := by
    clear hboth hneg hhid
    induction l with
    | nil => exact ⟨[], .nil⟩
    | cons p l ih =>
      obtain ⟨s, hs⟩ := ih
      obtain ⟨a, b⟩ := p
      have : ∃ c, AttrLetter c a ∧ c.toUpper = c := by
        cases a
        · exact ⟨_, .void, by decide⟩
        · exact ⟨_, .archive, by decide⟩
        · exact ⟨_, .readonly, by decide⟩
        · exact ⟨_, .hidden, by decide⟩
        · exact ⟨_, .system, by decide⟩
        · exact ⟨_, .dir, by decide⟩
      obtain ⟨c, hc, hu⟩ := this
      cases b
      · exact ⟨_, .absent hc hu hs⟩
      · exact ⟨_, .present hc hu hs⟩
  obtain ⟨s, hs⟩ := ht
  rw [← makeAttr_text hs, C34_filter_partial s l hs f hboth hneg hhid]
  exact ⟨fun h p hp => h p.1 p.2 hp, fun h a b hp => h (a, b) hp⟩

theorem check_dir (f : FileStat) : checkFileAttributes 0xC00#16 f = !f.dir := by
  obtain ⟨a, b, c, d, e, n⟩ := f
  simp [checkFileAttributes, attrTest, hasFlag]

theorem del_filter (full : List Char → List Char) (items : List DelItem) (hs : SoundSel items) (f : FileStat) :
    (checkFileAttributes (delAttr (delState full delInit items)) f = true ∧ checkFileAttributes 0xC00#16 f = true) ↔ Eligible items f := by
  rw [check_dir]
  have hattr : (delState full delInit items).attr = flagsOf (delSel items) := by
    unfold delState delSel delInit
    cases (items.filterMap fun | .attrs l => some l | _ => none).getLast? <;> simp [flagsOf]
  have hforce : (delState full delInit items).force = decide (DelItem.force ∈ items) := by simp [delState, delInit]
  unfold delAttr
  rw [hattr, hforce]
  unfold Eligible
  by_cases h0 : delSel items = []
  · rw [if_pos (flagsOf_eq_zero.2 h0), h0]
    obtain ⟨a, b, c, d, e, n⟩ := f
    by_cases hf : DelItem.force ∈ items <;> by_cases hr : (delState full delInit items).recursive = true <;> cases d <;> cases e <;>
      simp [hf, hr, checkFileAttributes, attrTest, hasFlag]
  · rw [if_neg (fun h => h0 (flagsOf_eq_zero.1 h)), check_flags _ f hs.both hs.neg hs.hid]
    constructor
    · rintro ⟨h1, h2⟩
      refine ⟨by simpa using h2, ?_, h1⟩
      rcases hs.ro with h | h | h
      · exact absurd h h0
      · exact .inl h
      · exact .inr (by simpa [fileHas] using h1 _ h)
    · rintro ⟨h1, -, h2⟩
      exact ⟨h2, by simp [h1]⟩

/-- The files DEL considers: those found for the names, in order, which are eligible. -/
def Spec.delTargets (full : List Char → List Char) (search : Bool → List Char → List (List Char × FileStat)) (items : List DelItem) :
    List (List Char) :=
  ((((delNames items).flatMap fun n => search (decide (DelItem.recursive ∈ items)) (full n)).filter fun f => decide (Eligible items f.2)).map
    (·.1))

theorem cmdDel_items {W : Type} (sys : DelSys W) (words : AskWords) (full : List Char → List Char)
    (search : Bool → List Char → List (List Char × FileStat)) (ps : List (List Char × DelItem)) (hp : ∀ p ∈ ps, DelText p.1 p.2)
    (items : List DelItem) (hi : items = ps.map (·.2)) (hn : delNames items ≠ [])
    (hf : ∀ n ∈ delNames items, search (decide (DelItem.recursive ∈ items)) (full n) ≠ [])
    (hs : SoundSel items) (w : W) (input : List Char) :
    cmdDel sys words full search (ps.map (·.1)) w input =
      if ((delNames items).any fun n => hasJoker (full n)) = true ∧ DelItem.quiet ∉ items then
        delFiles sys words true 0 (delTargets full search items) w input
      else delFiles sys words (decide (DelItem.prompt ∈ items ∨ DelItem.recursive ∈ items)) 4 (delTargets full search items) w input := by
  unfold cmdDel
  rw [delParams_items full ps delInit hp, ← hi]
  clear hi hp
  have hnames : (delState full delInit items).names = (delNames items).map full := by simp [delState, delInit]
  have hrec : (delState full delInit items).recursive = decide (DelItem.recursive ∈ items) := by simp [delState, delInit]
  have hq : (delState full delInit items).quiet = decide (DelItem.quiet ∈ items) := by simp [delState, delInit]
  have ha : (delState full delInit items).ask = decide (DelItem.prompt ∈ items ∨ DelItem.recursive ∈ items) := by simp [delState, delInit]
  simp only [delRun, hnames, hrec, hq, ha]
  rw [if_neg (by simpa using hn), delSearch_found _ _ _ (by simpa using hf)]
  simp only
  have hl : ((((List.map full (delNames items)).flatMap (search (decide (DelItem.recursive ∈ items)))).filter
      fun f => checkFileAttributes (delAttr (delState full delInit items)) f.2).filter fun f => checkFileAttributes 0xC00#16 f.2).map (·.1) =
      delTargets full search items := by
    unfold delTargets
    rw [List.filter_filter, List.flatMap_map]
    congr 1
    apply List.filter_congr
    intro f _
    rw [Bool.eq_iff_iff, decide_eq_true_iff, ← del_filter full items hs f.2, Bool.and_eq_true, and_comm]
  rw [hl]
  have hj : ((delNames items).map full).any hasJoker = (delNames items).any fun n => hasJoker (full n) := by
    rw [List.any_map]; rfl
  rw [hj]
  by_cases h1 : ((delNames items).any fun n => hasJoker (full n)) = true <;> by_cases h2 : DelItem.quiet ∈ items <;> simp only [h1, h2] <;> simp

/-- A name with a joker. -/
def Spec.Joker (n : List Char) : Prop := '*' ∈ n ∨ '?' ∈ n

theorem hasJoker_iff (n : List Char) : hasJoker n = true ↔ Joker n := by
  unfold hasJoker Joker
  rw [List.any_eq_true]
  constructor
  · rintro ⟨c, hc, h⟩
    simp only [Bool.or_eq_true, beq_iff_eq] at h
    rcases h with rfl | rfl
    · exact .inl hc
    · exact .inr hc
  · rintro (h | h)
    · exact ⟨_, h, by simp⟩
    · exact ⟨_, h, by simp⟩

/-- For every list of names and options without `/P`, either with `/Q` or with no joker: DEL removes exactly the files found that are not
directories, are not read-only unless `/F` is given, and have the attributes asked for, one after the other, whatever is on the input; the
error level is 0 iff every removal succeeded.
Missing: attributes the filters do not treat properly (C34), attributes given without `/F` that do not exclude read-only files
(`C52_readonly`), absolute names (`C52_absolute`), names written in a directory whose path has a joker (`C52_directory`). -/
theorem C52_removes_partial {W : Type} (sys : DelSys W) (words : AskWords) (full : List Char → List Char)
    (search : Bool → List Char → List (List Char × FileStat)) (ps : List (List Char × DelItem)) (hp : ∀ p ∈ ps, DelText p.1 p.2)
    (items : List DelItem) (hi : items = ps.map (·.2)) (hn : delNames items ≠ [])
    (hfull : ∀ n ∈ delNames items, Joker (full n) ↔ Joker n)
    (hf : ∀ n ∈ delNames items, search (decide (DelItem.recursive ∈ items)) (full n) ≠ [])
    (hs : SoundSel items) (hnp : DelItem.prompt ∉ items) (hq : DelItem.quiet ∈ items ∨ ∀ n ∈ delNames items, ¬ Joker n) (w : W) (input : List Char) :
    cmdDel sys words full search (ps.map (·.1)) w input =
      .ok ((removeAll sys.remove w (delTargets full search items)).1, input,
        if (removeAll sys.remove w (delTargets full search items)).2 then 0 else -1) := by
  rw [cmdDel_items sys words full search ps hp items hi hn hf hs, if_neg, delFiles_all]
  · rfl
  · rintro ⟨h1, h2⟩
    rcases hq with hq | hq
    · exact h2 hq
    · obtain ⟨n, hn1, hn2⟩ := List.any_eq_true.1 h1
      exact hq n hn1 ((hfull n hn1).1 ((hasJoker_iff _).1 hn2))

/-- For every list of names and options without `/Q`, one name at least having a joker: DEL asks about each of the files it would remove, in
order, and removes exactly those confirmed, ALL standing for YES to all the following ones; the error level is 0 iff every removal succeeded.
Missing: see `C52_removes_partial`; answers that are neither YES, NO, ALL nor empty (`C52_invalid`) and the end of the input (`C52_end`). -/
theorem C52_asks_partial {W : Type} (sys : DelSys W) (words : AskWords) (hw : ClearWords words) (full : List Char → List Char)
    (search : Bool → List Char → List (List Char × FileStat)) (ps : List (List Char × DelItem)) (hp : ∀ p ∈ ps, DelText p.1 p.2)
    (items : List DelItem) (hi : items = ps.map (·.2))
    (hfull : ∀ n ∈ delNames items, Joker (full n) ↔ Joker n)
    (hf : ∀ n ∈ delNames items, search (decide (DelItem.recursive ∈ items)) (full n) ≠ [])
    (hs : SoundSel items) (hnq : DelItem.quiet ∉ items) (hj : ∃ n ∈ delNames items, Joker n) (w : W)
    (input : List Char) (ys : List (List Char)) (rest : List Char) (hc : Confirmed words (delTargets full search items) input ys rest) :
    cmdDel sys words full search (ps.map (·.1)) w input =
      .ok ((removeAll sys.remove w ys).1, rest, if (removeAll sys.remove w ys).2 then 0 else -1) := by
  obtain ⟨n, hn, hjn⟩ := hj
  rw [cmdDel_items sys words full search ps hp items hi (List.ne_nil_of_mem hn) hf hs, if_pos, delFiles_ask sys hw hc]
  · rfl
  · exact ⟨List.any_eq_true.2 ⟨n, hn, (hasJoker_iff _).2 ((hfull n hn).2 hjn)⟩, hnq⟩

/-- If one of the names finds no file, nothing is removed, nothing is asked, and the error level is 42. -/
theorem C52_no_match {W : Type} (sys : DelSys W) (words : AskWords) (full : List Char → List Char)
    (search : Bool → List Char → List (List Char × FileStat)) (ps : List (List Char × DelItem)) (hp : ∀ p ∈ ps, DelText p.1 p.2)
    (items : List DelItem) (hi : items = ps.map (·.2))
    (hf : ∃ n ∈ delNames items, search (decide (DelItem.recursive ∈ items)) (full n) = []) (w : W) (input : List Char) :
    cmdDel sys words full search (ps.map (·.1)) w input = .ok (w, input, 42) := by
  obtain ⟨n, hn, h0⟩ := hf
  unfold cmdDel
  rw [delParams_items full ps delInit hp, ← hi]
  have hnames : (delState full delInit items).names = (delNames items).map full := by simp [delState, delInit]
  have hrec : (delState full delInit items).recursive = decide (DelItem.recursive ∈ items) := by simp [delState, delInit]
  simp only [delRun, hnames, hrec]
  rw [if_neg (by simp [List.ne_nil_of_mem hn]), delSearch_missing _ _ _ ⟨full n, List.mem_map_of_mem hn, h0⟩]

/-- Options without a name: nothing is removed, and the error level is -1. -/
theorem C52_no_name {W : Type} (sys : DelSys W) (words : AskWords) (full : List Char → List Char)
    (search : Bool → List Char → List (List Char × FileStat)) (ps : List (List Char × DelItem)) (hp : ∀ p ∈ ps, DelText p.1 p.2)
    (hn : delNames (ps.map (·.2)) = []) (w : W) (input : List Char) :
    cmdDel sys words full search (ps.map (·.1)) w input = .ok (w, input, -1) := by
  unfold cmdDel
  rw [delParams_items full ps delInit hp]
  have hnames : (delState full delInit (ps.map (·.2))).names = (delNames (ps.map (·.2))).map full := by simp [delState, delInit]
  simp only [delRun]
  rw [if_pos (by rw [hnames, hn]; rfl)]

/-- Violation: `/P` asks nothing. With `/P` and no joker every file is removed, whatever the input (even empty). -/
theorem C52_prompt {W : Type} (sys : DelSys W) (words : AskWords) (full : List Char → List Char)
    (search : Bool → List Char → List (List Char × FileStat)) (ps : List (List Char × DelItem)) (hp : ∀ p ∈ ps, DelText p.1 p.2)
    (items : List DelItem) (hi : items = ps.map (·.2)) (hn : delNames items ≠ [])
    (hf : ∀ n ∈ delNames items, search (decide (DelItem.recursive ∈ items)) (full n) ≠ [])
    (hs : SoundSel items) (_hprompt : DelItem.prompt ∈ items) (hq : ∀ n ∈ delNames items, ¬ Joker (full n)) (w : W) (input : List Char) :
    cmdDel sys words full search (ps.map (·.1)) w input =
      .ok ((removeAll sys.remove w (delTargets full search items)).1, input,
        if (removeAll sys.remove w (delTargets full search items)).2 then 0 else -1) := by
  rw [cmdDel_items sys words full search ps hp items hi hn hf hs, if_neg, delFiles_all]
  · rfl
  · rintro ⟨h1, -⟩
    obtain ⟨n, hn1, hn2⟩ := List.any_eq_true.1 h1
    exact hq n hn1 ((hasJoker_iff _).1 hn2)

/-- Violation: `DEL /A:R file` removes a read-only file without `/F`. -/
theorem C52_readonly {W : Type} (sys : DelSys W) (words : AskWords) (full : List Char → List Char)
    (search : Bool → List Char → List (List Char × FileStat)) (n f : List Char) (st : FileStat) (hn : n.head? ≠ some '/')
    (hd : st.dir = false) (hr : st.readonly = true) (hj : ¬ Joker (full n)) (hs : search false (full n) = [(f, st)]) (w : W) (input : List Char) :
    cmdDel sys words full search ["/A:R".toList, n] w input = .ok ((sys.remove w f).1, input, if (sys.remove w f).2 then 0 else -1) := by
  have h := delParams_items full [("/A:R".toList, .attrs [(Attr.readonly, true)]), (n, .name n)] delInit (by
    intro p hp
    simp only [List.mem_cons, List.not_mem_nil, or_false] at hp
    rcases hp with rfl | rfl
    · exact .attrs' (a := 'A') (s := ['R']) (.inr rfl) (.present .readonly (by decide) .nil)
    · exact .name hn)
  simp only [List.map_cons, List.map_nil] at h
  unfold cmdDel
  rw [h]
  have hj' : hasJoker (full n) = false := by
    rw [← Bool.not_eq_true, hasJoker_iff]; exact hj
  have e : delState full delInit [.attrs [(Attr.readonly, true)], .name n] = ⟨false, false, false, false, 1#16, [full n]⟩ := by
    simp [delState, delInit, delNames, flagsOf, flagOf]
  rw [e]
  obtain ⟨a, b, c, d, e, z⟩ := st
  simp only at hd hr
  subst hd hr
  simp only [delRun, delSearch, hs]
  simp only [List.any_cons, hj', List.any_nil, Bool.or_false, Bool.false_and, List.cons_ne_nil, if_false, Option.map_some, List.append_nil]
  have hf : ([(f, (⟨a, b, c, false, true, z⟩ : FileStat))].filter fun f => checkFileAttributes (delAttr ⟨false, false, false, false, 1#16, [full n]⟩) f.2).filter
      (fun f => checkFileAttributes 0xC00#16 f.2) = [(f, ⟨a, b, c, false, true, z⟩)] := by
    simp [delAttr, checkFileAttributes, attrTest, hasFlag]
  rw [hf]
  rw [show (if false = true then (0 : Int) else 4) = 4 by rfl, delFiles_all]
  simp [removeAll, delLevel]

/-- Violation: an absolute name beginning with `/a` is read as an option. Alone it makes DEL fail, whether the file exists or not. -/
theorem C52_absolute {W : Type} (sys : DelSys W) (words : AskWords) (full : List Char → List Char)
    (search : Bool → List Char → List (List Char × FileStat)) (s : List Char) (w : W) (input : List Char) :
    cmdDel sys words full search ["/a".toList ++ s] w input = .ok (w, input, -1) := by
  have hne : ∀ u : List Char, (∃ c, fold u = ['/', c] ∧ c ≠ 'a') → ¬ stricmp ("/a".toList ++ s) u = 0 := by
    rintro u ⟨c, hu, hc⟩ h0
    rw [stricmp_zero, hu] at h0
    simp only [fold, List.map_append, show "/a".toList.map Char.toLower = ['/', 'a'] by decide, List.cons_append, List.cons.injEq] at h0
    exact hc h0.2.1.symm
  have hp : prefixI "/A".toList ("/a".toList ++ s) = true := by
    rw [prefixI_iff]
    exact ⟨s.map Char.toLower, by simp⟩
  unfold cmdDel delParams delParam
  rw [if_neg (hne _ ⟨'p', by decide, by decide⟩), if_neg (hne _ ⟨'f', by decide, by decide⟩), if_neg (hne _ ⟨'s', by decide, by decide⟩),
    if_neg (hne _ ⟨'q', by decide, by decide⟩), if_pos hp]
  simp [delParams, delRun, delInit]

/-- Violation: in a directory whose path has a joker, a plain name is treated as one with a joker: with no line on the input DEL reads
an uninitialised character. -/
theorem C52_directory {W : Type} (sys : DelSys W) (words : AskWords) (full : List Char → List Char)
    (search : Bool → List Char → List (List Char × FileStat)) (n f : List Char) (st : FileStat) (hn : n.head? ≠ some '/')
    (hd : st.dir = false) (hr : st.readonly = false) (hj : Joker (full n)) (hs : search false (full n) = [(f, st)]) (w : W) :
    cmdDel sys words full search [n] w [] = .ub := by
  have h := cmdDel_items sys words full search [(n, .name n)] (by simpa using DelText.name hn) [.name n] rfl (by simp [delNames])
    (by simp [delNames, hs]) ⟨by simp [delSel], by simp [delSel], by simp [delSel], by simp [delSel]⟩ w []
  simp only [List.map_cons, List.map_nil] at h
  rw [h, if_pos]
  · have : delTargets full search [.name n] = [f] := by
      unfold delTargets
      have he : Eligible [.name n] st := ⟨hd, .inr hr, by simp [delSel]⟩
      simp [delNames, hs, he]
    rw [this]
    simp [delFiles, askConfirmation, askRead, askReadLoop, Res.ub_bind]
  · exact ⟨by simp [delNames, (hasJoker_iff _).2 hj], by simp⟩

theorem delFiles_invalid {W : Type} (sys : DelSys W) (words : AskWords) (f : List Char) (fs : List (List Char)) (w : W) (input t r : List Char)
    (ht : Typed input t r) (hl : t.length < 30) (hy : ¬ Says words.yes words.yesA t) (hn : ¬ Says words.no words.noA t)
    (ha : ¬ Says words.all words.allA t) (he : t ≠ []) : delFiles sys words true 0 (f :: fs) w input = .ub := by
  unfold delFiles
  simp only [and_self, if_true]
  have : askConfirmation words true 2 true input = .ub := by
    unfold askConfirmation
    rw [askRead_typed ht, Res.ok_bind, List.take_of_length_le (by omega)]
    simp only [stricmp_zero]
    unfold Says at hy hn ha
    rw [if_neg hy, if_neg hn, if_neg (fun h => ha h.2), if_neg (fun h => he h.2), if_neg (by simp)]
  rw [this, Res.ub_bind]

theorem delFiles_end {W : Type} (sys : DelSys W) (words : AskWords) (f : List Char) (fs : List (List Char)) (w : W) (input : List Char)
    (h : '\n' ∉ input) : delFiles sys words true 0 (f :: fs) w input = if input = [] then .ub else .hang := by
  unfold delFiles
  simp only [and_self, if_true]
  unfold askConfirmation askRead
  rw [askReadLoop_eof input false h]
  by_cases h0 : input = [] <;> simp [h0, Res.ub_bind, Res.hang_bind]

/-- Violation: after an answer which is neither YES, NO, ALL nor empty, the question is not asked again: a variable never set is read. -/
theorem C52_invalid {W : Type} (sys : DelSys W) (words : AskWords) (full : List Char → List Char)
    (search : Bool → List Char → List (List Char × FileStat)) (ps : List (List Char × DelItem)) (hp : ∀ p ∈ ps, DelText p.1 p.2)
    (items : List DelItem) (hi : items = ps.map (·.2))
    (hfull : ∀ n ∈ delNames items, Joker (full n) ↔ Joker n)
    (hf : ∀ n ∈ delNames items, search (decide (DelItem.recursive ∈ items)) (full n) ≠ [])
    (hs : SoundSel items) (hnq : DelItem.quiet ∉ items) (hj : ∃ n ∈ delNames items, Joker n) (htg : delTargets full search items ≠ []) (w : W)
    (input t r : List Char) (ht : Typed input t r) (hl : t.length < 30) (hy : ¬ Says words.yes words.yesA t) (hno : ¬ Says words.no words.noA t)
    (ha : ¬ Says words.all words.allA t) (he : t ≠ []) : cmdDel sys words full search (ps.map (·.1)) w input = .ub := by
  obtain ⟨n, hn, hjn⟩ := hj
  obtain ⟨f, fs, hfs⟩ := List.exists_cons_of_ne_nil htg
  rw [cmdDel_items sys words full search ps hp items hi (List.ne_nil_of_mem hn) hf hs, if_pos, hfs, delFiles_invalid sys words f fs w input t r ht hl hy hno ha he]
  exact ⟨List.any_eq_true.2 ⟨n, hn, (hasJoker_iff _).2 ((hfull n hn).2 hjn)⟩, hnq⟩

/-- Violation: at the end of the input DEL does not take the default answer: it reads an uninitialised character, or loops for ever if
the last line is not ended. -/
theorem C52_end {W : Type} (sys : DelSys W) (words : AskWords) (full : List Char → List Char)
    (search : Bool → List Char → List (List Char × FileStat)) (ps : List (List Char × DelItem)) (hp : ∀ p ∈ ps, DelText p.1 p.2)
    (items : List DelItem) (hi : items = ps.map (·.2))
    (hfull : ∀ n ∈ delNames items, Joker (full n) ↔ Joker n)
    (hf : ∀ n ∈ delNames items, search (decide (DelItem.recursive ∈ items)) (full n) ≠ [])
    (hs : SoundSel items) (hnq : DelItem.quiet ∉ items) (hj : ∃ n ∈ delNames items, Joker n) (htg : delTargets full search items ≠ []) (w : W)
    (input : List Char) (h : '\n' ∉ input) :
    cmdDel sys words full search (ps.map (·.1)) w input = if input = [] then .ub else .hang := by
  obtain ⟨n, hn, hjn⟩ := hj
  obtain ⟨f, fs, hfs⟩ := List.exists_cons_of_ne_nil htg
  rw [cmdDel_items sys words full search ps hp items hi (List.ne_nil_of_mem hn) hf hs, if_pos, hfs, delFiles_end sys words f fs w input h]
  exact ⟨List.any_eq_true.2 ⟨n, hn, (hasJoker_iff _).2 ((hfull n hn).2 hjn)⟩, hnq⟩

section Examples

def english : AskWords := ⟨"YES".toList, "Y".toList, "NO".toList, "N".toList, "ALL".toList, "A".toList⟩

/-- The English words are clear. -/
theorem english_clear : ClearWords english := by
  refine ⟨by decide, ?_, ?_, ?_⟩ <;>
  · rintro t (h | h) (h' | h') <;> rw [h] at h' <;> revert h' <;> decide

/-- A system which notes the files removed, and cannot remove `d`. -/
def noteSys : DelSys (List (List Char)) := ⟨fun w f => if f = "d".toList then (w, false) else (w ++ [f], true)⟩

def plainFile : FileStat := ⟨false, false, false, false, false, 3⟩

def threeFiles : Bool → List Char → List (List Char × FileStat) := fun _ _ =>
  [("a".toList, plainFile), ("b".toList, plainFile), ("c".toList, { plainFile with dir := true }), ("d".toList, plainFile)]

example : cmdDel noteSys english id threeFiles ["*".toList] [] "n\r\nYes\n\nmore".toList = .ok (["b".toList], "more".toList, 0) := by
  decide +kernel
example : cmdDel noteSys english id threeFiles ["*".toList] [] "all\nmore".toList = .ok (["a".toList, "b".toList], "more".toList, -1) := by
  decide +kernel
example : cmdDel noteSys english id threeFiles ["*".toList, "/q".toList] [] [] = .ok (["a".toList, "b".toList], [], -1) := by
  decide +kernel

/-- The hypotheses of `C52_asks_partial` are met by `DEL *` answered "n", "Yes" and an empty line. -/
example : cmdDel noteSys english id threeFiles ["*".toList] [] "n\r\nYes\n\nmore".toList = .ok (["b".toList], "more".toList, 0) :=
  C52_asks_partial noteSys english english_clear id threeFiles [("*".toList, .name "*".toList)]
    (by intro p hp; simp only [List.mem_cons, List.not_mem_nil, or_false] at hp; subst hp; exact .name (by decide)) _ rfl
    (by simp) (by intro n _; simp [threeFiles])
    ⟨by intro a; cases a <;> decide, by decide, by decide, by decide⟩ (by decide) ⟨"*".toList, by decide, .inl (by decide)⟩ [] _ _ _
    (.no ⟨"n\r".toList, by decide, rfl, rfl⟩ (.inl (.inr (by decide)))
      (.yes ⟨"Yes".toList, by decide, rfl, rfl⟩ (.inl (by decide)) (.no ⟨[], by decide, rfl, rfl⟩ (.inr rfl) .nil)))

end Examples

end PBat
