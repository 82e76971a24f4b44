import Verif.Spec.Rd
import Verif.Props.C52
import Verif.Props.C55
/-
C56: RD removes exactly the directories named, and with /S everything inside them.
-/
namespace PBat
open Spec

theorem check_isdir (f : FileStat) : checkFileAttributes 0x400#16 f = f.dir := by
  obtain ⟨a, b, c, d, e, n⟩ := f
  cases d <;> simp [checkFileAttributes, attrTest, hasFlag]

theorem rdParams_items (full : List Char → List Char) : ∀ (ps : List (List Char × RdItem)) (d : RdParams), (∀ p ∈ ps, RdText p.1 p.2) →
    rdParams full (ps.map (·.1)) d = some ⟨d.recursive || decide (RdItem.below ∈ ps.map (·.2)), d.quiet || decide (RdItem.quiet ∈ ps.map (·.2)),
      d.names ++ (rdNames (ps.map (·.2))).map full⟩
  | [], d, _ => by simp [rdParams, rdNames]
  | (t, it) :: ps, d, h => by
    have ih := fun d => rdParams_items full ps d (fun p hp => h p (by simp [hp]))
    have h0 : RdText t it := h (t, it) (by simp)
    simp only [List.map_cons]
    unfold rdParams
    simp only [stricmp_zero]
    cases h0 with
    | below h1 =>
      have hne : t ≠ "/?".toList := by rintro rfl; revert h1; decide
      rw [if_neg hne, if_pos (h1.trans (by decide)), ih]
      simp [rdNames, show (RdItem.quiet == RdItem.below) = false from rfl]
    | quiet h1 =>
      have hne : t ≠ "/?".toList := by rintro rfl; revert h1; decide
      have hs : ¬ fold t = fold "/S".toList := by rw [h1]; decide
      rw [if_neg hne, if_neg hs, if_pos (h1.trans (by decide)), ih]
      simp [rdNames, show (RdItem.below == RdItem.quiet) = false from rfl]
    | name h1 h2 h3 =>
      rw [if_neg h3, if_neg (fun h => h1 (h.trans (by decide))), if_neg (fun h => h2 (h.trans (by decide))), ih]
      simp [rdNames, show (RdItem.below == RdItem.name t) = false from rfl, show (RdItem.quiet == RdItem.name t) = false from rfl]

/-- The error code of removals. -/
def rdCode (code : BitVec 32) (b : Bool) : BitVec 32 := if b then 0#32 else code

theorem rdCode_and (s code : BitVec 32) (a b : Bool) : (s ||| if a then 0#32 else code) ||| rdCode code b = s ||| rdCode code (a && b) := by
  cases a <;> cases b <;> simp [rdCode, BitVec.or_assoc]

theorem rdEach_all {W : Type} (op : W → List Char → W × Bool) (code : BitVec 32) (words : AskWords) (ask : Bool) :
    ∀ (fs : List (List Char)) (w : W) (i : List Char) (s : BitVec 32),
    rdEach op code words ask fs w i 4 s = .ok ((removeAll op w fs).1, i, 4, s ||| rdCode code (removeAll op w fs).2)
  | [], w, i, s => by simp [rdEach, removeAll, rdCode]
  | f :: fs, w, i, s => by
    unfold rdEach
    simp only [show ¬ ((4 : Int) = 0) by decide, false_and, if_false, Res.ok_bind, true_or, if_true]
    rw [rdEach_all op code words ask fs]
    simp only [removeAll, rdCode_and]

/-- Questions about two lists one after the other. -/
theorem confirmed_append {words : AskWords} {as bs ys : List (List Char)} {i rest : List Char} (h : Confirmed words (as ++ bs) i ys rest) :
    (∃ ys1 mid ys2, Confirmed words as i ys1 mid ∧ Confirmed words bs mid ys2 rest ∧ ys = ys1 ++ ys2 ∧
      ∀ {W : Type} (op : W → List Char → W × Bool) (code : BitVec 32), ClearWords words → ∀ (w : W) (s : BitVec 32),
        rdEach op code words true as w i 0 s = .ok ((removeAll op w ys1).1, mid, 0, s ||| rdCode code (removeAll op w ys1).2)) ∨
    (∃ ys1, ys = ys1 ++ bs ∧ ys1.Sublist as ∧
      ∀ {W : Type} (op : W → List Char → W × Bool) (code : BitVec 32), ClearWords words → ∀ (w : W) (s : BitVec 32),
        rdEach op code words true as w i 0 s = .ok ((removeAll op w ys1).1, rest, 4, s ||| rdCode code (removeAll op w ys1).2)) := by
  induction as generalizing i ys with
  | nil => exact .inl ⟨[], i, ys, .nil, h, rfl, fun op code _ w s => by simp [rdEach, removeAll, rdCode]⟩
  | cons f as ih =>
    rw [List.cons_append] at h
    cases h with
    | yes ht hs hc =>
      rcases ih hc with ⟨y1, mid, y2, h1, h2, h3, h4⟩ | ⟨y1, h3, h5, h4⟩
      · refine .inl ⟨f :: y1, mid, y2, .yes ht hs h1, h2, by simp [h3], fun op code hw w s => ?_⟩
        unfold rdEach
        simp only [and_self, if_true, ask_yes hw ht hs, Res.ok_bind, show ¬ ((1 : Int) = 4) by decide, false_or, true_and, if_false]
        rw [h4 op code hw]
        simp only [removeAll, rdCode_and]
      · refine .inr ⟨f :: y1, by simp [h3], h5.cons_cons _, fun op code hw w s => ?_⟩
        unfold rdEach
        simp only [and_self, if_true, ask_yes hw ht hs, Res.ok_bind, show ¬ ((1 : Int) = 4) by decide, false_or, true_and, if_false]
        rw [h4 op code hw]
        simp only [removeAll, rdCode_and]
    | no ht hs hc =>
      rcases ih hc with ⟨y1, mid, y2, h1, h2, h3, h4⟩ | ⟨y1, h3, h5, h4⟩
      · refine .inl ⟨y1, mid, y2, .no ht hs h1, h2, h3, fun op code hw w s => ?_⟩
        unfold rdEach
        simp only [and_self, if_true, ask_no hw ht hs, Res.ok_bind, show ¬ ((2 : Int) = 4) by decide, show ¬ ((2 : Int) = 1) by decide, or_self,
          true_and, if_false]
        exact h4 op code hw w s
      · refine .inr ⟨y1, h3, h5.cons _, fun op code hw w s => ?_⟩
        unfold rdEach
        simp only [and_self, if_true, ask_no hw ht hs, Res.ok_bind, show ¬ ((2 : Int) = 4) by decide, show ¬ ((2 : Int) = 1) by decide, or_self,
          true_and, if_false]
        exact h4 op code hw w s
    | all ht hs =>
      refine .inr ⟨f :: as, by simp, List.Sublist.refl _, fun op code hw w s => ?_⟩
      unfold rdEach
      simp only [and_self, if_true, ask_all hw ht hs, Res.ok_bind, true_or]
      rw [rdEach_all]
      simp only [removeAll, rdCode_and]

theorem removeAll_append {W : Type} (op : W → List Char → W × Bool) : ∀ (as bs : List (List Char)) (w : W),
    removeAll op w (as ++ bs) = ((removeAll op (removeAll op w as).1 bs).1, (removeAll op w as).2 && (removeAll op (removeAll op w as).1 bs).2)
  | [], bs, w => by simp [removeAll]
  | a :: as, bs, w => by simp [removeAll, removeAll_append op as bs, Bool.and_assoc]

theorem removeAll_congr {W : Type} (op op' : W → List Char → W × Bool) : ∀ (as : List (List Char)) (w : W), (∀ a ∈ as, ∀ w, op w a = op' w a) →
    removeAll op w as = removeAll op' w as
  | [], _, _ => rfl
  | a :: as, w, h => by
    simp only [removeAll, h a (by simp)]
    rw [removeAll_congr op op' as _ (fun a ha => h a (by simp [ha]))]

/-- The error level: -1 if a file could not be removed, otherwise 51 if a directory could not. -/
theorem rdCode_toInt (a b : Bool) : (0#32 ||| rdCode (-1#32) a ||| rdCode 51#32 b).toInt = if a then if b then 0 else 51 else -1 := by
  cases a <;> cases b <;> decide

theorem confirmed_sub {words : AskWords} {fs ys : List (List Char)} {i rest : List Char} (h : Confirmed words fs i ys rest) : ys.Sublist fs := by
  induction h with
  | nil => exact .slnil
  | yes _ _ _ ih => exact ih.cons_cons _
  | no _ _ _ ih => exact ih.cons _
  | all => exact List.Sublist.refl _

theorem rdLevel_zero (a b : Bool) : (if a then if b then 0 else 51 else -1 : Int) = 0 ↔ (a && b) = true := by
  cases a <;> cases b <;> decide

/-- What RD does with several names or /S: the files found, then the directories. -/
theorem rdRun_many {W : Type} (sys : RdSys W) (words : AskWords) (search : Bool → List Char → List (List Char)) (stat : List Char → FileStat)
    (d : RdParams) (h0 : d.names ≠ []) (h1 : d.recursive = true ∨ 2 ≤ d.names.length) (hf : ∀ n ∈ d.names, search d.recursive n ≠ []) (w : W)
    (input : List Char) :
    rdRun sys words search stat d w input = (do
      let l := d.names.flatMap (search d.recursive)
      let x ← rdEach sys.remove (-1#32) words (!d.quiet) (l.filter fun f => !(stat f).dir) w input (if d.quiet then 4 else 0) 0#32
      let y ← rdEach sys.rmdir 51#32 words (!d.quiet) (l.filter fun f => (stat f).dir) x.1 x.2.1 x.2.2.1 x.2.2.2
      .ok (y.1, y.2.1, y.2.2.2)) := by
  obtain ⟨r, q, names⟩ := d
  simp only at h0 h1 hf ⊢
  have hs := delSearch_found search r names hf
  unfold rdRun
  simp only [check_isdir]
  match r, names with
  | _, [] => exact absurd rfl h0
  | true, [n] => simp only [hs]
  | false, [n] => rcases h1 with h1 | h1 <;> simp at h1
  | true, n :: n' :: ns => simp only [hs]
  | false, n :: n' :: ns => simp only [hs]

theorem removeAll_targets {W : Type} (sys : RdSys W) (dir : List Char → Bool) (as bs : List (List Char)) (ha : ∀ a ∈ as, dir a = false)
    (hb : ∀ b ∈ bs, dir b = true) (w : W) :
    removeAll (rdOp sys dir) w (as ++ bs) = ((removeAll sys.rmdir (removeAll sys.remove w as).1 bs).1,
      (removeAll sys.remove w as).2 && (removeAll sys.rmdir (removeAll sys.remove w as).1 bs).2) := by
  rw [removeAll_append, removeAll_congr (rdOp sys dir) sys.remove as w (fun a h w => by simp [rdOp, ha a h]),
    removeAll_congr (rdOp sys dir) sys.rmdir bs _ (fun a h w => by simp [rdOp, hb a h])]

/-- With /Q, and /S or several names: RD removes the files found, then the directories found, one after the other, whatever is on the input; the error
level is 0 iff every removal succeeded. -/
theorem C56_quiet {W : Type} (sys : RdSys W) (words : AskWords) (full : List Char → List Char) (search : Bool → List Char → List (List Char))
    (stat : List Char → FileStat) (ps : List (List Char × RdItem)) (hp : ∀ p ∈ ps, RdText p.1 p.2)
    (items : List RdItem) (hi : items = ps.map (·.2)) (h0 : rdNames items ≠ []) (h1 : RdItem.below ∈ items ∨ 2 ≤ (rdNames items).length)
    (hf : ∀ n ∈ rdNames items, search (decide (RdItem.below ∈ items)) (full n) ≠ []) (hq : RdItem.quiet ∈ items) (w : W) (input : List Char) :
    ∃ level, cmdRd sys words full search stat (ps.map (·.1)) w input =
      .ok ((removeAll (rdOp sys fun f => (stat f).dir) w (rdTargets (fun f => (stat f).dir)
        ((rdNames items).flatMap fun n => search (decide (RdItem.below ∈ items)) (full n)))).1, input, level) ∧
      (level = 0 ↔ (removeAll (rdOp sys fun f => (stat f).dir) w (rdTargets (fun f => (stat f).dir)
        ((rdNames items).flatMap fun n => search (decide (RdItem.below ∈ items)) (full n)))).2 = true) := by
  unfold cmdRd
  rw [rdParams_items full ps _ hp, ← hi]
  simp only [Bool.false_or, List.nil_append]
  rw [rdRun_many]
  · simp only [hq, decide_true, if_true, Bool.not_true, List.flatMap_map]
    rw [rdEach_all, Res.ok_bind]
    simp only
    rw [rdEach_all]
    simp only [Res.ok_bind, rdCode_toInt]
    rw [rdTargets, removeAll_targets sys _ _ _ (by simp) (by simp)]
    exact ⟨_, rfl, rdLevel_zero _ _⟩
  · simpa using h0
  · simpa using h1
  · intro n hn
    obtain ⟨m, hm, rfl⟩ := List.mem_map.1 hn
    exact hf m hm

/-- Without /Q the user is asked about each of these in order, and those confirmed are removed. -/
theorem C56_asks_partial {W : Type} (sys : RdSys W) (words : AskWords) (hw : ClearWords words) (full : List Char → List Char)
    (search : Bool → List Char → List (List Char))
    (stat : List Char → FileStat) (ps : List (List Char × RdItem)) (hp : ∀ p ∈ ps, RdText p.1 p.2)
    (items : List RdItem) (hi : items = ps.map (·.2)) (h0 : rdNames items ≠ []) (h1 : RdItem.below ∈ items ∨ 2 ≤ (rdNames items).length)
    (hf : ∀ n ∈ rdNames items, search (decide (RdItem.below ∈ items)) (full n) ≠ []) (hq : RdItem.quiet ∉ items) (w : W) (input : List Char)
    (ys : List (List Char)) (rest : List Char)
    (hc : Confirmed words (rdTargets (fun f => (stat f).dir)
        ((rdNames items).flatMap fun n => search (decide (RdItem.below ∈ items)) (full n))) input ys rest) :
    ∃ level, cmdRd sys words full search stat (ps.map (·.1)) w input =
      .ok ((removeAll (rdOp sys fun f => (stat f).dir) w ys).1, rest, level) ∧
      (level = 0 ↔ (removeAll (rdOp sys fun f => (stat f).dir) w ys).2 = true) := by
  unfold cmdRd
  rw [rdParams_items full ps _ hp, ← hi]
  simp only [Bool.false_or, List.nil_append]
  rw [rdRun_many]
  · simp only [hq, decide_false, Bool.not_false, List.flatMap_map, Bool.false_eq_true, if_false]
    unfold rdTargets at hc
    rcases confirmed_append hc with ⟨y1, mid, y2, c1, c2, rfl, hr⟩ | ⟨y1, rfl, hsub, hr⟩
    · have ha : ∀ a ∈ y1, (stat a).dir = false := fun a h => by
        have := (confirmed_sub c1).subset h
        simp at this
        exact this.2
      have hb : ∀ b ∈ y2, (stat b).dir = true := fun a h => by
        have := (confirmed_sub c2).subset h
        simp at this
        exact this.2
      rw [hr _ _ hw, Res.ok_bind]
      simp only
      rw [← List.append_nil (List.filter (fun f => (stat f).dir) _)] at c2
      rcases confirmed_append c2 with ⟨z1, mid2, z2, d1, d2, e, hr2⟩ | ⟨z1, e, -, hr2⟩
      · cases d2
        rw [List.append_nil] at e
        subst e
        rw [hr2 _ _ hw]
        simp only [Res.ok_bind, rdCode_toInt]
        rw [removeAll_targets sys _ _ _ ha hb]
        exact ⟨_, rfl, rdLevel_zero _ _⟩
      · rw [List.append_nil] at e
        subst e
        rw [hr2 _ _ hw]
        simp only [Res.ok_bind, rdCode_toInt]
        rw [removeAll_targets sys _ _ _ ha hb]
        exact ⟨_, rfl, rdLevel_zero _ _⟩
    · rw [hr _ _ hw, Res.ok_bind]
      simp only
      rw [rdEach_all]
      simp only [Res.ok_bind, rdCode_toInt]
      have ha : ∀ a ∈ y1, (stat a).dir = false := by
        intro a h
        have := hsub.subset h
        simp at this
        exact this.2
      rw [removeAll_targets sys _ _ _ ha (by simp)]
      exact ⟨_, rfl, rdLevel_zero _ _⟩
  · simpa using h0
  · simpa using h1
  · intro n hn
    obtain ⟨m, hm, rfl⟩ := List.mem_map.1 hn
    exact hf m hm

/-- One name without /S: the directory is removed as it is, without question. -/
theorem C56_single {W : Type} (sys : RdSys W) (words : AskWords) (full : List Char → List Char) (search : Bool → List Char → List (List Char))
    (stat : List Char → FileStat) (ps : List (List Char × RdItem)) (hp : ∀ p ∈ ps, RdText p.1 p.2)
    (n : List Char) (h0 : rdNames (ps.map (·.2)) = [n]) (h1 : RdItem.below ∉ ps.map (·.2)) (w : W) (input : List Char) :
    cmdRd sys words full search stat (ps.map (·.1)) w input = .ok ((sys.rmdir w (full n)).1, input, 0) := by
  unfold cmdRd
  rw [rdParams_items full ps _ hp, h0]
  simp only [Bool.false_or, List.nil_append, h1, decide_false]
  rfl

/-- Without a name nothing is removed and the level says that something is missing. -/
theorem C56_no_name {W : Type} (sys : RdSys W) (words : AskWords) (full : List Char → List Char) (search : Bool → List Char → List (List Char))
    (stat : List Char → FileStat) (ps : List (List Char × RdItem)) (hp : ∀ p ∈ ps, RdText p.1 p.2)
    (h0 : rdNames (ps.map (·.2)) = []) (w : W) (input : List Char) :
    cmdRd sys words full search stat (ps.map (·.1)) w input = .ok (w, input, 8) := by
  unfold cmdRd
  rw [rdParams_items full ps _ hp, h0]
  simp only [Bool.false_or, List.map_nil, List.append_nil]
  unfold rdRun
  cases decide (RdItem.below ∈ ps.map (·.2)) <;> rfl

/-- If a name finds nothing, nothing is removed. -/
theorem C56_no_match {W : Type} (sys : RdSys W) (words : AskWords) (full : List Char → List Char) (search : Bool → List Char → List (List Char))
    (stat : List Char → FileStat) (ps : List (List Char × RdItem)) (hp : ∀ p ∈ ps, RdText p.1 p.2)
    (items : List RdItem) (hi : items = ps.map (·.2)) (h1 : RdItem.below ∈ items ∨ 2 ≤ (rdNames items).length)
    (hf : ∃ n ∈ rdNames items, search (decide (RdItem.below ∈ items)) (full n) = []) (w : W) (input : List Char) :
    cmdRd sys words full search stat (ps.map (·.1)) w input = .ok (w, input, 42) := by
  obtain ⟨n, hn, hf⟩ := hf
  unfold cmdRd
  rw [rdParams_items full ps _ hp, ← hi]
  simp only [Bool.false_or, List.nil_append]
  have hm := delSearch_missing search (decide (RdItem.below ∈ items)) ((rdNames items).map full) ⟨full n, List.mem_map_of_mem hn, hf⟩
  have hl : ((rdNames items).map full).length = (rdNames items).length := List.length_map _
  have hne : (rdNames items).map full ≠ [] := by intro h; rw [List.map_eq_nil_iff] at h; rw [h] at hn; cases hn
  unfold rdRun
  simp only
  split
  · next h2 h3 =>
    rw [h3] at hl
    rcases h1 with h1 | h1
    · simp [h1] at h2
    · rw [← hl] at h1
      simp at h1
  · next h2 => exact absurd h2 hne
  · rw [hm]
    rfl

/-! ### The whole tree -/

theorem within_iff (x d : List Char) : within x d = true ↔ Within x d := by
  unfold within Within
  rw [List.isPrefixOf_iff_prefix]
  constructor
  · rintro ⟨e, rfl⟩; exact ⟨e, by simp⟩
  · rintro ⟨e, rfl⟩; exact ⟨e, by simp⟩

/-- Removing in an order in which each directory comes after everything inside it. -/
theorem removeAll_tree (dir : List Char → Bool) : ∀ (L w : List (List Char)), L.Nodup → (∀ a ∈ L, a ∈ w) →
    (∀ L1 d L2, L = L1 ++ d :: L2 → dir d = true → ∀ x ∈ w, Within x d → x ∈ L1) →
    removeAll (rdOp (treeSys dir) dir) w L = (w.filter (fun x => !decide (x ∈ L)), true)
  | [], w, _, _, _ => by
    have : w.filter (fun _ => true) = w := List.filter_eq_self.2 (by simp)
    simp [removeAll, this]
  | a :: L, w, hn, hm, ho => by
    have hop : rdOp (treeSys dir) dir w a = (w.filter (· ≠ a), true) := by
      unfold rdOp treeSys
      cases hd : dir a with
      | false => simp [hm a (by simp), hd]
      | true =>
        have : w.all (fun x => !within x a) = true := by
          rw [List.all_eq_true]
          intro x hx
          rw [Bool.not_eq_true', Bool.eq_false_iff]
          intro hw
          exact absurd (ho [] a L rfl hd x hx ((within_iff x a).1 hw)) (by simp)
        simp [hm a (by simp), this, hd]
    rw [List.nodup_cons] at hn
    simp only [removeAll, hop]
    rw [removeAll_tree dir L _ hn.2]
    · simp only [List.filter_filter, Bool.and_true, Prod.mk.injEq, and_true]
      congr 1
      funext x
      by_cases h1 : x = a <;> by_cases h2 : x ∈ L <;> simp [h1, h2]
    · intro b hb
      rw [List.mem_filter]
      refine ⟨hm b (by simp [hb]), ?_⟩
      simp only [decide_eq_true_eq]
      rintro rfl
      exact hn.1 hb
    · intro L1 d L2 hL hd x hx hw
      rw [List.mem_filter] at hx
      have := ho (a :: L1) d L2 (by simp [hL]) hd x hx.1 hw
      rcases List.mem_cons.1 this with rfl | h
      · simp at hx
      · exact h

/-- `RD /S /Q d` removes the whole tree below the directory `d` and `d` itself, and nothing else: in a file system in which what exists inside `d`
is what its directories list. -/
theorem C56_tree (fs : FileSys) (hfs : FileSysLaws fs) (words : AskWords) (k n : Nat) (hn : k < n) (d : List Char)
    (hk : Depth fs k (some d)) (hd : fs.isDir d = true) (hl : d.getLast? ≠ some '/')
    (hname : fold d ≠ "/s".toList ∧ fold d ≠ "/q".toList ∧ d ≠ "/?".toList) (stat : List Char → FileStat) (hstat : ∀ p, (stat p).dir = fs.isDir p)
    (search : Bool → List Char → List (List Char)) (hs : searchTop fs { recursive := true, noPseudo := true } n d = .ok (search true d))
    (w : List (List Char)) (hdw : d ∈ w)
    (hw : ∀ x, Within x d → (x ∈ w ↔ ∃ d' e, Below fs (some d) d' ∧ e ∈ namesIn fs d' ∧ ¬ Dots e ∧ x = inDir d' e)) (input : List Char) :
    ∃ w', cmdRd (treeSys fs.isDir) words id search stat [['/', 's'], ['/', 'q'], d] w input = .ok (w', input, 0) ∧
      ∀ x, x ∈ w' ↔ x ∈ w ∧ x ≠ d ∧ ¬ Within x d := by
  obtain ⟨r, h1, h2, h3⟩ := C55_recursive_dir fs hfs { recursive := true, noPseudo := true } rfl rfl k d hk hd hl n hn rfl
  have hfound : search true d = r ++ [d] := by
    rw [h1] at hs
    simpa using hs.symm
  have hin : ∀ x, x ∈ r → Within x d := by
    intro x hx
    obtain ⟨d', e, hb, he, rfl⟩ := (h2 x).1 hx
    have hbelow : ∀ d0 d', Below fs d0 d' → ∀ p, d0 = some p → (p = d ∨ Within p d) → ∃ p', d' = some p' ∧ (p' = d ∨ Within p' d) := by
      intro d0 d' hb
      induction hb with
      | here => intro p h hp; exact ⟨p, h, hp⟩
      | @down d1 e1 d2 he1 _ _ _ ih =>
        rintro p rfl hp
        refine ih _ rfl (.inr ?_)
        have hpl : p.getLast? ≠ some '/' → inDir (some p) e1 = p ++ '/' :: e1 := fun h => by simp [inDir, h]
        rcases hp with rfl | ⟨z, rfl⟩
        · exact ⟨e1, hpl hl⟩
        · unfold inDir
          simp only
          split
          · exact ⟨z ++ e1, by simp⟩
          · exact ⟨z ++ '/' :: e1, by simp⟩
    obtain ⟨p', rfl, hp⟩ := hbelow _ _ hb d rfl (.inl rfl)
    rcases hp with rfl | ⟨z, rfl⟩
    · exact ⟨e, by simp [inDir, hl]⟩
    · unfold inDir
      simp only
      split
      · exact ⟨z ++ e, by simp⟩
      · exact ⟨z ++ '/' :: e, by simp⟩
  have hself : ∀ x, ¬ Within x x := by
    rintro x ⟨z, h⟩
    have := congrArg List.length h
    simp at this
  have hr : ∀ x, x ∈ r ↔ x ∈ w ∧ Within x d := by
    intro x
    constructor
    · intro hx
      refine ⟨?_, hin x hx⟩
      rw [hw x (hin x hx)]
      obtain ⟨d', e, hb, he, rfl⟩ := (h2 x).1 hx
      have := mem_shown.1 he
      exact ⟨d', e, hb, this.1, fun h => this.2 ⟨rfl, h⟩, rfl⟩
    · rintro ⟨hx, hwi⟩
      obtain ⟨d', e, hb, he, hdot, rfl⟩ := (hw x hwi).1 hx
      exact (h2 _).2 ⟨d', e, hb, mem_shown.2 ⟨he, fun h => hdot h.2⟩, rfl⟩
  have hq := C56_quiet (treeSys fs.isDir) words id search stat
    [(['/', 's'], .below), (['/', 'q'], .quiet), (d, .name d)]
    (by
      intro p hp
      simp only [List.mem_cons, List.not_mem_nil, or_false] at hp
      rcases hp with rfl | rfl | rfl
      · exact .below (by decide)
      · exact .quiet (by decide)
      · exact .name hname.1 hname.2.1 hname.2.2) _ rfl (by simp [rdNames]) (.inl (by simp)) ?_ (by simp) w input
  · obtain ⟨level, e1, e2⟩ := hq
    have hT : (rdNames [RdItem.below, RdItem.quiet, RdItem.name d]).flatMap
        (fun n => search (decide (RdItem.below ∈ [RdItem.below, RdItem.quiet, RdItem.name d])) (id n)) = r ++ [d] := by
      rw [← hfound]
      simp [rdNames]
    simp only [List.map_cons, List.map_nil] at e1 e2
    rw [hT] at e1 e2
    have hdir : (fun f => (stat f).dir) = fs.isDir := funext hstat
    rw [hdir] at e1 e2
    have hnd : (r ++ [d]).Nodup := h3.imp fun h => h.1
    have key : removeAll (rdOp (treeSys fs.isDir) fs.isDir) w (rdTargets fs.isDir (r ++ [d])) =
        (w.filter (fun x => !decide (x ∈ rdTargets fs.isDir (r ++ [d]))), true) := by
      have hmem : ∀ a, a ∈ rdTargets fs.isDir (r ++ [d]) ↔ a ∈ r ++ [d] := by
        intro a
        unfold rdTargets
        rw [List.mem_append, List.mem_filter, List.mem_filter]
        cases fs.isDir a <;> simp
      refine removeAll_tree fs.isDir _ w ?_ ?_ ?_
      · unfold rdTargets
        rw [List.nodup_append]
        refine ⟨hnd.filter _, hnd.filter _, ?_⟩
        intro a ha b hb hab
        subst hab
        rw [List.mem_filter] at ha hb
        rw [hb.2] at ha
        simp at ha
      · intro a ha
        rw [hmem] at ha
        rcases List.mem_append.1 ha with ha | ha
        · exact ((hr a).1 ha).1
        · obtain rfl : a = d := by simpa using ha
          exact hdw
      · intro L1 c L2 hL hc x hx hwi
        have hcm : c ∈ r ++ [d] := (hmem c).1 (by rw [hL]; simp)
        have hxd : Within x d := by
          rcases List.mem_append.1 hcm with h | h
          · obtain ⟨y, rfl⟩ := hwi
            obtain ⟨z, rfl⟩ := hin c h
            exact ⟨z ++ '/' :: y, by simp⟩
          · obtain rfl : c = d := by simpa using h
            exact hwi
        have hxT : x ∈ rdTargets fs.isDir (r ++ [d]) := (hmem x).2 (List.mem_append_left _ ((hr x).2 ⟨hx, hxd⟩))
        rw [hL] at hxT
        rcases List.mem_append.1 hxT with h | h
        · exact h
        · exfalso
          rcases List.mem_cons.1 h with rfl | h
          · exact hself _ hwi
          · -- `x` comes after `c`, among the directories
            unfold rdTargets at hL
            have hpd : ((r ++ [d]).filter fs.isDir).Pairwise (fun a b => a ≠ b ∧ ¬ Within b a) := h3.filter _
            rcases List.append_eq_append_iff.1 hL with ⟨M, hM1, hM2⟩ | ⟨M, hM1, hM2⟩
            · rw [hM2, List.pairwise_append] at hpd
              exact (List.rel_of_pairwise_cons hpd.2.1 h).2 hwi
            · cases M with
              | nil =>
                rw [List.nil_append] at hM2
                rw [← hM2] at hpd
                exact (List.rel_of_pairwise_cons hpd h).2 hwi
              | cons m M =>
                have : c = m := by
                  rw [List.cons_append, List.cons.injEq] at hM2
                  exact hM2.1
                have hcf : c ∈ (r ++ [d]).filter (fun f => !fs.isDir f) := by rw [hM1, this]; simp
                rw [List.mem_filter] at hcf
                rw [hc] at hcf
                simp at hcf
    have hlev : level = 0 := e2.2 (by rw [key])
    subst hlev
    rw [key] at e1
    refine ⟨_, e1, ?_⟩
    intro x
    rw [List.mem_filter]
    have : x ∈ rdTargets fs.isDir (r ++ [d]) ↔ x ∈ r ∨ x = d := by
      unfold rdTargets
      rw [List.mem_append, List.mem_filter, List.mem_filter]
      cases fs.isDir x <;> simp
    simp only [Bool.not_eq_true', decide_eq_false_iff_not, this, hr, not_or, not_and]
    constructor
    · rintro ⟨h1, h2, h3⟩; exact ⟨h1, h3, h2 h1⟩
    · rintro ⟨h1, h2, h3⟩; exact ⟨h1, fun _ => h3, h2⟩
  · intro m hm
    obtain rfl : m = d := by simpa [rdNames] using hm
    simp [hfound]

/-- A case meeting the hypotheses of `C56_tree`: everything in `b` of the file system `someFs`. -/
example : Depth someFs 3 (some ['b']) ∧ someFs.isDir ['b'] = true ∧ ['b'].getLast? ≠ some '/' ∧
    (fold ['b'] ≠ "/s".toList ∧ fold ['b'] ≠ "/q".toList ∧ ['b'] ≠ "/?".toList) ∧
    searchTop someFs { recursive := true, noPseudo := true } 9 ['b'] =
      .ok [['b', '/', 'a', '2'], ['b', '/', 'c', '/', 'a', '3'], ['b', '/', 'c'], ['b', '/', 'n', 'u', 'l', 'l'], ['b']] ∧
    ∀ x, Within x ['b'] →
      (x ∈ [['a', 'b'], ['b'], ['b', '/', 'a', '2'], ['b', '/', 'c'], ['b', '/', 'c', '/', 'a', '3'], ['b', '/', 'n', 'u', 'l', 'l'], ['b', 'x']] ↔
        ∃ d' e, Below someFs (some ['b']) d' ∧ e ∈ namesIn someFs d' ∧ ¬ Dots e ∧ x = inDir d' e) := by
  refine ⟨someFs_depth _, by decide, by decide, by decide, by decide +kernel, ?_⟩
  have hb : ∀ e ∈ namesIn someFs (some ['b']), ¬ Dots e → someFs.isDir (inDir (some ['b']) e) = true → inDir (some ['b']) e = ['b', '/', 'c'] := by
    decide
  have hc : ∀ e ∈ namesIn someFs (some ['b', '/', 'c']), ¬ Dots e → ¬ someFs.isDir (inDir (some ['b', '/', 'c']) e) = true := by decide
  have h1 : ∀ e ∈ namesIn someFs (some ['b']), ¬ Dots e → inDir (some ['b']) e ∈ [['b', '/', 'a', '2'], ['b', '/', 'c'], ['b', '/', 'n', 'u', 'l', 'l']] := by
    decide
  have h2 : ∀ e ∈ namesIn someFs (some ['b', '/', 'c']), ¬ Dots e → inDir (some ['b', '/', 'c']) e = ['b', '/', 'c', '/', 'a', '3'] := by decide
  intro x hx
  constructor
  · intro h
    simp only [List.mem_cons, List.not_mem_nil, or_false] at h
    have hcb : Below someFs (some ['b']) (some ['b', '/', 'c']) :=
      .down (e := ['c']) (by decide) (by decide) (by decide) (.here _)
    rcases h with rfl | rfl | rfl | rfl | rfl | rfl | rfl
    · exact absurd ((within_iff _ _).2 hx) (by decide)
    · exact absurd ((within_iff _ _).2 hx) (by decide)
    · exact ⟨_, ['a', '2'], .here _, by decide, by decide, by decide⟩
    · exact ⟨_, ['c'], .here _, by decide, by decide, by decide⟩
    · exact ⟨_, ['a', '3'], hcb, by decide, by decide, by decide⟩
    · exact ⟨_, ['n', 'u', 'l', 'l'], .here _, by decide, by decide, by decide⟩
    · exact absurd ((within_iff _ _).2 hx) (by decide)
  · rintro ⟨d', e, hd', he, hdot, rfl⟩
    cases hd' with
    | here =>
      have := h1 e he hdot
      simp only [List.mem_cons, List.not_mem_nil, or_false] at this ⊢
      rcases this with h | h | h <;> simp [h]
    | @down _ e1 _ he1 hd1 hdir hrest =>
      rw [hb e1 he1 hd1 hdir] at hrest
      cases hrest with
      | here => rw [h2 e he hdot]; decide
      | @down _ e2 _ he2 hd2 hdir2 _ => exact absurd hdir2 (hc e2 he2 hd2)

/-- `RD d` of a directory that is not empty removes nothing and reports nothing; `RD *` looks for a directory of that name; with two names, files are
removed too. -/
theorem C56_violations (words : AskWords) (full : List Char → List Char) (search : Bool → List Char → List (List Char)) (stat : List Char → FileStat) :
    (∀ {W : Type} (sys : RdSys W) (n : List Char), RdText n (.name n) → ∀ w, (sys.rmdir w (full n)).2 = false →
      ∀ input, cmdRd sys words full search stat [n] w input = .ok ((sys.rmdir w (full n)).1, input, 0)) ∧
    (∀ {W : Type} (sys : RdSys W) w input, cmdRd sys words full search stat [['*']] w input = .ok ((sys.rmdir w (full ['*'])).1, input, 0)) ∧
    (∀ {W : Type} (sys : RdSys W) (d f : List Char), RdText d (.name d) → RdText f (.name f) → search false (full d) = [d] → search false (full f) = [f] →
      (stat d).dir = true → (stat f).dir = false → ∀ w input, ∃ level,
      cmdRd sys words full search stat [['/', 'q'], d, f] w input = .ok ((sys.rmdir (sys.remove w f).1 d).1, input, level)) := by
  refine ⟨?_, ?_, ?_⟩
  · intro W sys n hn w _ input
    exact C56_single sys words full search stat [(n, .name n)] (by simpa using hn) n rfl (by simp) w input
  · intro W sys w input
    exact C56_single sys words full search stat [(['*'], .name ['*'])] (by simpa using RdText.name (by decide) (by decide) (by decide)) ['*'] rfl (by simp) w input
  · intro W sys d f hd hf h1 h2 h3 h4 w input
    obtain ⟨level, e, _⟩ := C56_quiet sys words full search stat [(['/', 'q'], .quiet), (d, .name d), (f, .name f)]
      (by
        intro p hp
        simp only [List.mem_cons, List.not_mem_nil, or_false] at hp
        rcases hp with rfl | rfl | rfl
        · exact .quiet (by decide)
        · exact hd
        · exact hf) _ rfl (by simp [rdNames]) (.inr (by simp [rdNames])) (by simp [rdNames, h1, h2]) (by simp) w input
    refine ⟨level, ?_⟩
    rw [show [['/', 'q'], d, f] = List.map (·.1) [(['/', 'q'], RdItem.quiet), (d, .name d), (f, .name f)] from rfl, e]
    simp [rdNames, h1, h2, h3, h4, rdTargets, removeAll, rdOp]

/-- Cases of `C56_asks_partial` and `C56_no_match`: `RD /S d` answered "y" for the file and "a" for the directories; `RD d x` when `x` is not found. -/
example : cmdRd (treeSys fun p => decide (p = ['d'])) english id
      (fun r _ => if r then [['d', '/', 'f'], ['d']] else []) (fun p => ⟨false, false, false, decide (p = ['d']), false, 0⟩)
      [['/', 'S'], ['d']] [['d'], ['d', '/', 'f'], ['e']] ['y', '\n', 'a', '\n', 'm'] = .ok ([['e']], ['m'], 0) ∧
    Confirmed english (rdTargets (fun p => decide (p = ['d'])) [['d', '/', 'f'], ['d']]) ['y', '\n', 'a', '\n', 'm'] [['d', '/', 'f'], ['d']] ['m'] ∧
    cmdRd (treeSys fun p => decide (p = ['d'])) english id
      (fun _ p => if p = ['d'] then [['d']] else []) (fun p => ⟨false, false, false, decide (p = ['d']), false, 0⟩)
      [['d'], ['x']] [['d'], ['e']] [] = .ok ([['d'], ['e']], [], 42) :=
  ⟨by decide +kernel, .yes ⟨['y'], by decide, rfl, rfl⟩ (.inr (by decide)) (.all ⟨['a'], by decide, rfl, rfl⟩ (.inr (by decide))), by decide +kernel⟩

end PBat
