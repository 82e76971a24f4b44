import Verif.Spec.CopyTree
import Verif.Props.C60
/-
C61: COPY and MOVE of trees.
-/
namespace PBat
open Spec

theorem staticLength_flat : ∀ (s rest : List Char) (pos ptr : Nat), NoJoker s → '/' ∉ s → (rest = [] ∨ ∃ r, rest = '*' :: r ∨ rest = '?' :: r) →
    staticLength (s ++ rest) pos ptr = ptr
  | [], rest, pos, ptr, _, _, h => by
    rcases h with rfl | ⟨r, rfl | rfl⟩ <;> simp [staticLength]
  | c :: s, rest, pos, ptr, h1, h2, h => by
    have hc1 : c ≠ '/' := fun hh => h2 (by simp [hh])
    have hc2 : ¬ (c = '*' ∨ c = '?') := by
      rintro (hh | hh)
      · exact h1.1 (by simp [hh])
      · exact h1.2 (by simp [hh])
    rw [List.cons_append, staticLength, if_neg hc1, if_neg hc2]
    exact staticLength_flat s rest _ _ ⟨fun hh => h1.1 (by simp [hh]), fun hh => h1.2 (by simp [hh])⟩ (fun hh => h2 (by simp [hh])) h

theorem staticLength_pre : ∀ (a : List Char) (t : List Char) (pos ptr : Nat), NoJoker a →
    staticLength (a ++ '/' :: t) pos ptr = staticLength t (pos + a.length + 1) (pos + a.length)
  | [], t, pos, ptr, _ => by simp [staticLength]
  | c :: a, t, pos, ptr, h => by
    have hc2 : ¬ (c = '*' ∨ c = '?') := by
      rintro (hh | hh)
      · exact h.1 (by simp [hh])
      · exact h.2 (by simp [hh])
    have h' : NoJoker a := ⟨fun hh => h.1 (by simp [hh]), fun hh => h.2 (by simp [hh])⟩
    rw [List.cons_append, staticLength]
    split
    · rw [staticLength_pre a t _ _ h']
      simp only [List.length_cons]
      congr 1 <;> omega
    · rw [staticLength_pre a t _ _ h']
      simp only [List.length_cons]
      congr 1 <;> omega

theorem staticLength_part {pat pre : List Char} (h : StaticPart pat pre) :
    (if staticLength pat 0 0 = 0 then 0 else staticLength pat 0 0 + 1) = pre.length := by
  cases h with
  | @intro _ s rest h1 h2 h3 h4 h5 h6 =>
    obtain ⟨a, rfl⟩ := List.getLast?_eq_some_iff.1 h2
    have ha : NoJoker a := ⟨fun hh => h1.1 (by simp [hh]), fun hh => h1.2 (by simp [hh])⟩
    rw [List.append_assoc, List.singleton_append, staticLength_pre a _ 0 0 ha, staticLength_flat s rest _ _ h4 h5 h6]
    simp only [List.length_append, List.length_cons, List.length_nil, Nat.zero_add] at h3 ⊢
    rw [if_neg (by omega)]

theorem copyDirs_all {W : Type} (ops : CopyOps W) (dest : List Char) (size : Nat) : ∀ (ds : List (List Char)) (w : W) (st : BitVec 32),
    (copyDirs ops dest size ds w st).1 = (makeAll ops w (ds.map fun d => makePath dest (d.drop size))).1 ∧
      ((copyDirs ops dest size ds w st).2 = 0#32 ↔ st = 0#32 ∧ (makeAll ops w (ds.map fun d => makePath dest (d.drop size))).2 = true)
  | [], w, st => by simp [copyDirs, makeAll]
  | d :: ds, w, st => by
    have ih := copyDirs_all ops dest size ds (ops.mkdirs w (makePath dest (d.drop size))).1 (st ||| (ops.mkdirs w (makePath dest (d.drop size))).2)
    rw [copyDirs]
    refine ⟨ih.1.trans rfl, ih.2.trans ?_⟩
    rw [or_zero_iff]
    simp [makeAll, and_assoc]

/-- Without questions. -/
theorem copyTree_all {W : Type} (ops : CopyOps W) (words : AskWords) (dest : List Char) (size : Nat) (k : CopyKind) : ∀ (ps : List (List Char × List Char)) (w : W)
    (input : List Char) (fl : CopyFlags) (st : BitVec 32), fl.silence = true → copyKindOf fl = k → fl.multiple = false →
    (∀ p ∈ ps, makePath dest (p.1.drop size) = p.2) →
    ∃ fl' st', copyTree ops words dest size (ps.map (·.1)) w input fl st = .ok ((copyAll (k.op ops) (w, fl.second) ps).1.1, input, fl', st') ∧
      (st' = 0#32 ↔ st = 0#32 ∧ (copyAll (k.op ops) (w, fl.second) ps).2 = true) ∧ fl'.move = fl.move
  | [], w, input, fl, st, _, _, _, _ => ⟨fl, st, by simp [copyTree, copyAll]⟩
  | (a, d) :: ps, w, input, fl, st, hs, hk, hm, hr => by
    have hd := hr (a, d) (by simp)
    simp only at hd
    obtain ⟨st1, h1, h2⟩ := copyOne_do ops words d a d w input input fl 1 (copyReal_flat fl (.inl hm) d a) (.inl rfl) (by simp [copyAsk, hs])
    rw [hk] at h1 h2
    obtain ⟨fl', st', h3, h4, h5⟩ := copyTree_all ops words dest size k ps (k.op ops (w, fl.second) a d).1.1 input
      { fl with silence := fl.silence || ((1 : Int) == 4), second := (k.op ops (w, fl.second) a d).1.2 } (st ||| st1) (by simp [hs]) (by rw [← hk]; rfl) hm
      (fun p hp => hr p (by simp [hp]))
    refine ⟨fl', st', ?_, ?_, h5⟩
    · simp only [List.map_cons]
      rw [copyTree, hd, h1, Res.ok_bind]
      simp only
      rw [h3]
      simp [copyAll]
    · rw [h4, or_zero_iff, h2]
      simp [copyAll, and_assoc]

/-- With questions. -/
theorem copyTree_dialog {W : Type} (ops : CopyOps W) {words : AskWords} (hw : ClearWords words) (dest : List Char) (size : Nat) (k : CopyKind)
    {s : W × Bool} {ps : List (List Char × List Char)} {input rest : List Char} {r : (W × Bool) × Bool}
    (h : CopyDialog words (fun s => ops.isReg s.1) (k.op ops) s ps input r rest) : ∀ (fl : CopyFlags) (st : BitVec 32), fl.silence = false →
    copyKindOf fl = k → fl.second = s.2 → fl.multiple = false → (∀ p ∈ ps, makePath dest (p.1.drop size) = p.2) →
    ∃ fl' st', copyTree ops words dest size (ps.map (·.1)) s.1 input fl st = .ok (r.1.1, rest, fl', st') ∧ (st' = 0#32 ↔ st = 0#32 ∧ r.2 = true) ∧
      fl'.move = fl.move := by
  induction h with
  | nil => intro fl st _ _ _ _ _; exact ⟨fl, st, by simp [copyTree]⟩
  | @fresh s a d ps i r rest hd _ ih =>
    intro fl st hs hk hsec hm hr
    have hdd := hr (a, d) (by simp)
    simp only at hdd
    obtain ⟨st1, h1, h2⟩ := copyOne_do ops words d a d s.1 i i fl 1 (copyReal_flat fl (.inl hm) d a) (.inl rfl) (by simp [copyAsk, hd])
    rw [hk, hsec] at h1 h2
    obtain ⟨fl', st', h3, h4, h5⟩ := ih { fl with silence := fl.silence || ((1 : Int) == 4), second := (k.op ops s a d).1.2 } (st ||| st1) (by simp [hs])
      (by rw [← hk]; rfl) rfl hm (fun p hp => hr p (by simp [hp]))
    refine ⟨fl', st', ?_, ?_, h5⟩
    · simp only [List.map_cons]
      rw [copyTree, hdd, h1, Res.ok_bind]
      exact h3
    · rw [h4, or_zero_iff, h2]
      simp [and_assoc]
  | @yes s a d ps i t i' r rest hd ht hy _ ih =>
    intro fl st hs hk hsec hm hr
    have hdd := hr (a, d) (by simp)
    simp only at hdd
    obtain ⟨st1, h1, h2⟩ := copyOne_do ops words d a d s.1 i i' fl 1 (copyReal_flat fl (.inl hm) d a) (.inl rfl)
      (by unfold copyAsk; rw [if_pos ⟨hd, hs⟩]; exact ask_yes hw ht hy)
    rw [hk, hsec] at h1 h2
    obtain ⟨fl', st', h3, h4, h5⟩ := ih { fl with silence := fl.silence || ((1 : Int) == 4), second := (k.op ops s a d).1.2 } (st ||| st1) (by simp [hs])
      (by rw [← hk]; rfl) rfl hm (fun p hp => hr p (by simp [hp]))
    refine ⟨fl', st', ?_, ?_, h5⟩
    · simp only [List.map_cons]
      rw [copyTree, hdd, h1, Res.ok_bind]
      exact h3
    · rw [h4, or_zero_iff, h2]
      simp [and_assoc]
  | @no s a d ps i t i' r rest hd ht hn _ ih =>
    intro fl st hs hk hsec hm hr
    have hdd := hr (a, d) (by simp)
    simp only at hdd
    have h1 := copyOne_skip ops words d a d s.1 i i' fl (copyReal_flat fl (.inl hm) d a) (by unfold copyAsk; rw [if_pos ⟨hd, hs⟩]; exact ask_no hw ht hn)
    obtain ⟨fl', st', h3, h4, h5⟩ := ih fl (st ||| 0#32) hs hk hsec hm (fun p hp => hr p (by simp [hp]))
    refine ⟨fl', st', ?_, ?_, h5⟩
    · simp only [List.map_cons]
      rw [copyTree, hdd, h1, Res.ok_bind]
      exact h3
    · rw [h4]; simp
  | @all s a d ps i t i' hd ht hall =>
    intro fl st hs hk hsec hm hr
    have hdd := hr (a, d) (by simp)
    simp only at hdd
    obtain ⟨st1, h1, h2⟩ := copyOne_do ops words d a d s.1 i i' fl 4 (copyReal_flat fl (.inl hm) d a) (.inr rfl)
      (by unfold copyAsk; rw [if_pos ⟨hd, hs⟩]; exact ask_all hw ht hall)
    rw [hk, hsec] at h1 h2
    obtain ⟨fl', st', h3, h4, h5⟩ := copyTree_all ops words dest size k ps (k.op ops s a d).1.1 i'
      { fl with silence := fl.silence || ((4 : Int) == 4), second := (k.op ops s a d).1.2 } (st ||| st1) (by simp) (by rw [← hk]; rfl) hm
      (fun p hp => hr p (by simp [hp]))
    refine ⟨fl', st', ?_, ?_, h5⟩
    · simp only [List.map_cons]
      rw [copyTree, hdd, h1, Res.ok_bind]
      simp only
      rw [h3]
      simp [copyAll]
    · rw [h4, or_zero_iff, h2]
      simp [copyAll, and_assoc]

/-- The attributes asked for are among those the filter handles (`C34_filter_partial`). -/
structure TreeSound (items : List CopyItem) : Prop where
  both : ∀ a, ¬ ((a, true) ∈ copySel items ∧ (a, false) ∈ copySel items)
  neg : (Attr.system, false) ∉ copySel items ∧ (Attr.void, false) ∉ copySel items
  hid : (Attr.hidden, false) ∈ copySel items → (Attr.system, true) ∉ copySel items ∧ (Attr.void, true) ∉ copySel items

theorem tree_filter (items : List CopyItem) (hs : TreeSound items) (stat : List Char → FileStat) (l : List (List Char)) :
    (l.filter fun f => checkFileAttributes (copyAttr 0#16 items) (stat f)) = treeFound (fun f => fileHas (stat f)) items l := by
  unfold treeFound
  apply List.filter_congr
  intro f _
  have h1 : copyAttr 0#16 items = flagsOf (copySel items) := by
    unfold copyAttr copySel
    cases (items.filterMap fun | .attrs l => some l | _ => none).getLast? <;> simp [flagsOf]
  rw [h1, Bool.eq_iff_iff, check_flags _ _ hs.both hs.neg hs.hid]
  simp

theorem copyRecursive_eq {W : Type} (ops : CopyOps W) (words : AskWords) (deep : List Char → List (List Char)) (stat : List Char → FileStat)
    (items : List CopyItem) (hs : TreeSound items) (pat pre dest : List Char) (hpat : StaticPart pat pre) (hdest : dest ≠ []) (hf : deep pat ≠ [])
    (rel : List Char → List Char) (hrel : ∀ f ∈ deep pat, f = pre ++ rel f) (w : W) (input : List Char) (fl : CopyFlags)
    (dirs files : List (List Char)) (hdirs : dirs = (treeFound (fun f => fileHas (stat f)) items (deep pat)).filter fun f => (stat f).dir)
    (hfiles : files = (treeFound (fun f => fileHas (stat f)) items (deep pat)).filter fun f => !(stat f).dir) :
    copyRecursive ops words deep stat (copyAttr 0#16 items) pat dest w input fl = (do
      let m := copyDirs ops dest pre.length dirs w 0#32
      let r ← copyTree ops words dest pre.length files m.1 input fl m.2
      if r.2.2.1.move then
        .ok ((copyRmdirs ops dest pre.length dirs r.1 r.2.2.2).1, r.2.1, r.2.2.1, (copyRmdirs ops dest pre.length dirs r.1 r.2.2.2).2)
      else .ok r) ∧
    (dirs.map fun d => makePath dest (d.drop pre.length)) = (dirs.map fun d => inDir (some dest) (rel d)) ∧
    ∀ f ∈ files, makePath dest (f.drop pre.length) = inDir (some dest) (rel f) := by
  have hmem : ∀ f, f ∈ dirs ∨ f ∈ files → f ∈ deep pat := by
    intro f h
    rcases h with h | h
    · rw [hdirs, List.mem_filter] at h
      exact (List.mem_filter.1 h.1).1
    · rw [hfiles, List.mem_filter] at h
      exact (List.mem_filter.1 h.1).1
  have hpath : ∀ f, f ∈ dirs ∨ f ∈ files → makePath dest (f.drop pre.length) = inDir (some dest) (rel f) := by
    intro f h
    have := hrel f (hmem f h)
    rw [makePath_inDir _ _ hdest]
    congr 1
    conv => lhs; rw [this]
    simp
  refine ⟨?_, List.map_congr_left fun f h => hpath f (.inl h), fun f h => hpath f (.inr h)⟩
  unfold copyRecursive
  rw [if_neg hf]
  simp only [tree_filter items hs stat]
  rw [staticLength_part hpat]
  have h1 : (treeFound (fun f => fileHas (stat f)) items (deep pat)).filter (fun f => checkFileAttributes 0xC00#16 (stat f)) = files := by
    rw [hfiles]
    apply List.filter_congr
    intro f _
    exact check_dir _
  have h2 : (treeFound (fun f => fileHas (stat f)) items (deep pat)).filter (fun f => !checkFileAttributes 0xC00#16 (stat f)) = dirs := by
    rw [hdirs]
    apply List.filter_congr
    intro f _
    rw [check_dir, Bool.not_not]
  rw [h1, h2]

theorem cmdCopy_rec {W : Type} (ops : CopyOps W) (words : AskWords) (full : List Char → List Char) (search deep : List Char → List (List Char))
    (stat : List Char → FileStat) (move : Bool) (ps : List (List Char × CopyItem)) (hp : ∀ p ∈ ps, CopyText p.1 p.2) (items : List CopyItem)
    (hi : items = ps.map (·.2)) (hdeep : .deep ∈ items) (hplus : .plus ∉ items) (srcs : List (List Char)) (dst : List Char)
    (hn : copyNames items = srcs ++ [dst]) (hne : srcs ≠ []) (w : W) (input : List Char) :
    cmdCopy ops words full search deep stat move (ps.map (·.1)) w input =
      copyRecEach (fun f => copyRecursive ops words deep stat (copyAttr 0#16 items) f (full dst)) (srcs.map full) w input
        ⟨decide (.ask ∈ items), false, move, true, false, false⟩ 0#32 := by
  unfold cmdCopy
  rw [copyParams_items full ps _ _ _ hp (by rw [← hi]; exact fun _ => hplus), ← hi]
  simp only [List.nil_append, hn, List.map_append, List.map_cons, List.map_nil]
  obtain ⟨src, srcs', rfl⟩ := List.exists_cons_of_ne_nil hne
  unfold copyRun
  simp only [List.getLast?_concat, List.dropLast_concat]
  simp only [List.map_cons]
  have hst : copyState ⟨false, false, move, false, false, false⟩ items = ⟨decide (.ask ∈ items), false, move, true, false, false⟩ := by
    simp [copyState, hdeep, hplus]
  rw [hst]
  simp

/-- COPY of a tree: the directories found below the static part of the pattern are made at the same place below the destination, then each file is copied
to its place, in order, with a question when it exists there; the level is 0 if and only if all of it succeeded.  Missing: several trees
(`C61_level`), MOVE (`C61_move`), the options for questions (`C60_swapped`). -/
theorem C61_tree_partial {W : Type} (ops : CopyOps W) (words : AskWords) (hw : ClearWords words) (full : List Char → List Char)
    (search deep : List Char → List (List Char)) (stat : List Char → FileStat) (ps : List (List Char × CopyItem))
    (hp : ∀ p ∈ ps, CopyText p.1 p.2) (items : List CopyItem)
    (hi : items = ps.map (·.2)) (hdeep : .deep ∈ items) (hplus : .plus ∉ items) (hask : .ask ∉ items) (src dst : List Char)
    (hn : copyNames items = [src, dst]) (hdst : full dst ≠ []) (hs : TreeSound items) (pre : List Char) (hpat : StaticPart (full src) pre)
    (hf : deep (full src) ≠ []) (rel : List Char → List Char) (hrel : ∀ f ∈ deep (full src), f = pre ++ rel f) (w : W) (input : List Char)
    (dirs files : List (List Char)) (hdirs : dirs = (treeFound (fun f => fileHas (stat f)) items (deep (full src))).filter fun f => (stat f).dir)
    (hfiles : files = (treeFound (fun f => fileHas (stat f)) items (deep (full src))).filter fun f => !(stat f).dir)
    (m : W × Bool) (hm : m = makeAll ops w (dirs.map fun d => inDir (some (full dst)) (rel d)))
    (r : (W × Bool) × Bool) (rest : List Char)
    (hd : CopyDialog words (fun s => ops.isReg s.1) (CopyKind.copy.op ops) (m.1, false) (files.map fun f => (f, inDir (some (full dst)) (rel f))) input r rest) :
    ∃ lvl, cmdCopy ops words full search deep stat false (ps.map (·.1)) w input = .ok (r.1.1, rest, lvl) ∧
      (lvl = 0#32 ↔ m.2 = true ∧ r.2 = true) := by
  rw [cmdCopy_rec ops words full search deep stat false ps hp items hi hdeep hplus [src] dst hn (by simp)]
  obtain ⟨h1, h2, h3⟩ := copyRecursive_eq ops words deep stat items hs (full src) pre (full dst) hpat hdst hf rel hrel w input
    ⟨decide (.ask ∈ items), false, false, true, false, false⟩ dirs files hdirs hfiles
  simp only [List.map_cons, List.map_nil, copyRecEach]
  rw [h1]
  obtain ⟨k1, k2⟩ := copyDirs_all ops (full dst) pre.length dirs w 0#32
  rw [h2, ← hm] at k1 k2
  obtain ⟨fl', st', g1, g2, g3⟩ := copyTree_dialog ops hw (full dst) pre.length .copy hd ⟨decide (.ask ∈ items), false, false, true, false, false⟩
    (copyDirs ops (full dst) pre.length dirs w 0#32).2 (by simpa using hask) rfl rfl rfl (by
      intro p hp
      obtain ⟨f, hf', rfl⟩ := List.mem_map.1 hp
      exact h3 f hf')
  rw [List.map_map, show ((fun x : List Char × List Char => x.1) ∘ fun f => (f, inDir (some (full dst)) (rel f))) = id from rfl, List.map_id] at g1
  simp only at g1 g3
  simp only [k1, g1, Res.ok_bind, g3]
  refine ⟨st', by simp, ?_⟩
  rw [g2, k2]
  simp

/-- A pattern that matches nothing: the level is -1 and nothing is done. -/
theorem C61_no_match {W : Type} (ops : CopyOps W) (words : AskWords) (full : List Char → List Char)
    (search deep : List Char → List (List Char)) (stat : List Char → FileStat) (move : Bool) (ps : List (List Char × CopyItem))
    (hp : ∀ p ∈ ps, CopyText p.1 p.2) (items : List CopyItem)
    (hi : items = ps.map (·.2)) (hdeep : .deep ∈ items) (hplus : .plus ∉ items) (src dst : List Char)
    (hn : copyNames items = [src, dst]) (hf : deep (full src) = []) (w : W) (input : List Char) :
    cmdCopy ops words full search deep stat move (ps.map (·.1)) w input = .ok (w, input, -1#32) := by
  rw [cmdCopy_rec ops words full search deep stat move ps hp items hi hdeep hplus [src] dst hn (by simp)]
  simp only [List.map_cons, List.map_nil, copyRecEach, copyRecursive]
  rw [if_pos hf]
  rfl

/-- Violation: with several trees, the level is that of the last one.  If nothing is found for the first, the result is that of the command without it. -/
theorem C61_level {W : Type} (ops : CopyOps W) (words : AskWords) (full : List Char → List Char)
    (search deep : List Char → List (List Char)) (stat : List Char → FileStat) (move : Bool) (m n d : List Char)
    (hm : CopyText m (.name m)) (hn : CopyText n (.name n)) (hd : CopyText d (.name d)) (hf : deep (full m) = []) (w : W) (input : List Char) :
    cmdCopy ops words full search deep stat move ["/R".toList, m, n, d] w input = cmdCopy ops words full search deep stat move ["/R".toList, n, d] w input := by
  have h1 := cmdCopy_rec ops words full search deep stat move [("/R".toList, .deep), (m, .name m), (n, .name n), (d, .name d)] (by
    intro p hp
    simp only [List.mem_cons, List.not_mem_nil, or_false] at hp
    rcases hp with rfl | rfl | rfl | rfl
    · exact .deep (by decide)
    · exact hm
    · exact hn
    · exact hd) _ rfl (by simp) (by simp) [m, n] d rfl (by simp) w input
  have h2 := cmdCopy_rec ops words full search deep stat move [("/R".toList, .deep), (n, .name n), (d, .name d)] (by
    intro p hp
    simp only [List.mem_cons, List.not_mem_nil, or_false] at hp
    rcases hp with rfl | rfl | rfl
    · exact .deep (by decide)
    · exact hn
    · exact hd) _ rfl (by simp) (by simp) [n] d rfl (by simp) w input
  simp only [List.map_cons, List.map_nil] at h1 h2
  rw [h1, h2]
  have ha : copyAttr 0#16 [CopyItem.deep, .name m, .name n, .name d] = copyAttr 0#16 [CopyItem.deep, .name n, .name d] := rfl
  have hk : decide (CopyItem.ask ∈ [CopyItem.deep, .name m, .name n, .name d]) = decide (CopyItem.ask ∈ [CopyItem.deep, .name n, .name d]) := by simp
  rw [ha, hk]
  conv => lhs; unfold copyRecEach
  simp only [copyRecursive]
  rw [if_pos hf, Res.ok_bind]
  simp only [copyRecEach]

/-- Violation: after MOVE of a tree the directories of the source are still there.  What is removed instead is named after the destination: below the
destination, the name of the directory without its first letter; the level is what this gives.  Here for one directory `pre/ch…`, without files. -/
theorem C61_move {W : Type} (ops : CopyOps W) (words : AskWords) (full : List Char → List Char)
    (search deep : List Char → List (List Char)) (stat : List Char → FileStat) (n d pre s : List Char) (c : Char)
    (hn : CopyText n (.name n)) (hd : CopyText d (.name d)) (hdst : full d ≠ []) (hpat : StaticPart (full n) pre)
    (hf : deep (full n) = [pre ++ c :: s]) (hdir : (stat (pre ++ c :: s)).dir = true) (w : W) (input : List Char) :
    cmdCopy ops words full search deep stat true ["/R".toList, n, d] w input =
      .ok ((ops.rmdir (ops.mkdirs w (inDir (some (full d)) (c :: s))).1 (inDir (some (full d)) s)).1, input,
        (ops.rmdir (ops.mkdirs w (inDir (some (full d)) (c :: s))).1 (inDir (some (full d)) s)).2) := by
  have h2 := cmdCopy_rec ops words full search deep stat true [("/R".toList, .deep), (n, .name n), (d, .name d)] (by
    intro p hp
    simp only [List.mem_cons, List.not_mem_nil, or_false] at hp
    rcases hp with rfl | rfl | rfl
    · exact .deep (by decide)
    · exact hn
    · exact hd) _ rfl (by simp) (by simp) [n] d rfl (by simp) w input
  simp only [List.map_cons, List.map_nil] at h2
  rw [h2]
  obtain ⟨h1, -, -⟩ := copyRecursive_eq ops words deep stat [CopyItem.deep, .name n, .name d] ⟨by simp [copySel], by simp [copySel], by simp [copySel]⟩
    (full n) pre (full d) hpat hdst (by simp [hf]) (fun _ => c :: s) (by simp [hf]) w input
    ⟨decide (.ask ∈ [CopyItem.deep, .name n, .name d]), false, true, true, false, false⟩ [pre ++ c :: s] [] (by simp [hf, treeFound, copySel, hdir])
    (by simp [hf, treeFound, copySel, hdir])
  simp only [copyRecEach]
  rw [h1]
  have e1 : (pre ++ c :: s).drop pre.length = c :: s := by simp
  have e2 : (pre ++ c :: s).drop (pre.length + 1) = s := by
    rw [← List.drop_drop, e1]; rfl
  simp only [copyTree, copyDirs, copyRmdirs, Res.ok_bind, e1, e2, if_true, makePath_inDir _ _ hdst]

/-- A case meeting the hypotheses of `C61_tree_partial`: a directory and a file below `t/`, copied to `d`. -/
example (f : Disk) (h : f ['d', '/', 'u', '/', 'x'] = none) (input : List Char) :
    StaticPart ['t', '/', '*'] ['t', '/'] ∧
    ∃ lvl, cmdCopy (diskOps oneByOne fun _ => false) english id (fun n => [n]) (fun _ => [['t', '/', 'u'], ['t', '/', 'u', '/', 'x']])
      (fun p => ⟨true, false, false, p == ['t', '/', 'u'], false, 1⟩) false ["/R".toList, ['t', '/', '*'], ['d']] f input =
        .ok (((diskOps oneByOne fun _ => false).copy f ['t', '/', 'u', '/', 'x'] ['d', '/', 'u', '/', 'x']).1, input, lvl) := by
  have hst : StaticPart ['t', '/', '*'] ['t', '/'] :=
    .intro (pre := ['t', '/']) (s := []) (rest := ['*']) ⟨by decide, by decide⟩ rfl (by decide) ⟨by decide, by decide⟩ (by decide) (.inr ⟨[], .inl rfl⟩)
  refine ⟨hst, ?_⟩
  obtain ⟨lvl, h1, -⟩ := C61_tree_partial (diskOps oneByOne fun _ => false) english english_clear id (fun n => [n])
    (fun _ => [['t', '/', 'u'], ['t', '/', 'u', '/', 'x']]) (fun p => ⟨true, false, false, p == ['t', '/', 'u'], false, 1⟩)
    [("/R".toList, .deep), (['t', '/', '*'], .name ['t', '/', '*']), (['d'], .name ['d'])] (by
      intro p hp
      simp only [List.mem_cons, List.not_mem_nil, or_false] at hp
      rcases hp with rfl | rfl | rfl
      · exact .deep (by decide)
      · exact .name (by decide) (by decide) (by decide) (by decide)
      · exact .name (by decide) (by decide) (by decide) (by decide)) _ rfl (by decide) (by decide) (by decide) ['t', '/', '*'] ['d'] rfl (by simp)
    ⟨by simp [copySel], by simp [copySel], by simp [copySel]⟩ ['t', '/'] hst (by simp) (fun p => p.drop 2) (by simp) f input
    [['t', '/', 'u']] [['t', '/', 'u', '/', 'x']] (by decide) (by decide) _ rfl _ input
    (.fresh (by simp [diskOps, makeAll, inDir, h]) .nil)
  exact ⟨lvl, h1⟩

end PBat
