import Verif.Lemmas.DirList
/-
C85: DIR.
-/
namespace PBat
open Spec

/-! ### What is asked -/

theorem hasBare_iff (is : List DirItem) : hasBare is = true ↔ DirItem.bare ∈ is := by
  unfold hasBare
  rw [List.any_eq_true]
  constructor
  · rintro ⟨i, hi, h⟩
    cases i <;> first | exact hi | cases h
  · intro h; exact ⟨_, h, rfl⟩

theorem hasDeep_iff (is : List DirItem) : hasDeep is = true ↔ DirItem.deep ∈ is := by
  unfold hasDeep
  rw [List.any_eq_true]
  constructor
  · rintro ⟨i, hi, h⟩
    cases i <;> first | exact hi | cases h
  · intro h; exact ⟨_, h, rfl⟩

/-- The names asked: none, or one that is no device. -/
def OneName (cur : List Char) (names : List (List Char)) : Prop :=
  (names = [] ∧ cur.length < 4094) ∨ ∃ n, names = [n] ∧ DirName cur n

/-- The variables used for the listing. -/
theorem dir_vars (w : DirSys) {is : List DirItem} (hn : OneName w.cur (askedNames is)) :
    let v := dirDefault w.cur (dirAfter w.cur {} is)
    v.simple = hasBare is ∧ v.noPseudo = hasBare is ∧ v.recursive = hasDeep is ∧ v.attr = flagsOf (askedAttr is) ∧
    (v.noStat = true → v.attr = 0#16 ∧ v.simple = true) ∧
    (hasBare is = true → is.any isAttrItem = false → v.noStat = true) ∧
    v.name = dirPattern w.cur (askedNames is) ∧ ∀ s, dirShown v.size (dirFile w.cur (askedNames is) s) = .ok s := by
  have h1 := dirAfter_fields w.cur is {}
  have h2 := dirAfter_attr w.cur is {} (by simp)
  have h3 := dirAfter_flags w.cur is
  have e1 : (dirAfter w.cur {} is).simple = hasBare is := by rw [Bool.eq_iff_iff, h1.1, hasBare_iff]; simp
  have e2 : (dirAfter w.cur {} is).noPseudo = hasBare is := by rw [Bool.eq_iff_iff, h1.2.1, hasBare_iff]; simp
  have e3 : (dirAfter w.cur {} is).recursive = hasDeep is := by rw [Bool.eq_iff_iff, h1.2.2, hasDeep_iff]; simp
  have e4 : hasBare is = true → is.any isAttrItem = false → (dirAfter w.cur {} is).noStat = true :=
    fun hb ha => dirAfter_nostat w.cur is ha {} rfl (.inr ((hasBare_iff is).1 hb))
  have shown_cur : ∀ s, dirShown (w.cur.length + 1) (w.cur ++ '/' :: s) = .ok s := by
    intro s
    unfold dirShown
    rw [if_pos (by simp)]
    congr 1
    rw [show w.cur ++ '/' :: s = (w.cur ++ ['/']) ++ s by simp]
    exact List.drop_left' (by simp)
  have shown_all : ∀ s : List Char, dirShown 0 s = .ok s := fun s => rfl
  rcases hn with ⟨hn, hl⟩ | ⟨n, hn, hd⟩
  · obtain ⟨n1, n2⟩ := dirAfter_noname w.cur is hn {}
    intro v
    have hv : v = { dirAfter w.cur {} is with name := w.cur ++ ['/', '*'], size := w.cur.length + 1 } := by
      show dirDefault _ _ = _
      unfold dirDefault
      rw [if_pos n1, List.take_of_length_le (by simp; omega)]
    rw [hv]
    refine ⟨e1, e2, e3, h3, h2.2, e4, ?_, ?_⟩
    · rw [hn]; rfl
    · rw [hn]; exact shown_cur
  · obtain ⟨n1, n2⟩ := dirAfter_name w.cur is n hn {}
    intro v
    have hv : v = dirAfter w.cur {} is := by
      show dirDefault _ _ = _
      unfold dirDefault
      rw [if_neg]
      rw [n1]
      split
      · exact hd.2.2.2
      · simp
    rw [hv]
    refine ⟨e1, e2, e3, h3, h2.2, e4, ?_, ?_⟩
    · rw [hn]; exact n1
    · rw [hn]
      intro s
      rw [n2]
      simp only [dirFile]
      split
      · exact shown_all s
      · exact shown_cur s


/-- The flags of the search for what a line asks. -/
def dirFlags (w : DirSys) (is : List DirItem) : SearchFlags :=
  { recursive := hasDeep is, noPseudo := hasBare is, dirMode := true, utf8 := w.utf8 }

theorem found_shape (w : DirSys) {is : List DirItem} (hc : ListDir w.cur) {found : List (List Char)}
    (hf : searchTop w.fs (dirFlags w is) w.n (dirPattern w.cur (askedNames is)) = .ok found) :
    ∀ x ∈ found, ∃ s, x = dirFile w.cur (askedNames is) s := by
  have below : ∀ rel, dirPattern w.cur (askedNames is) = w.cur ++ '/' :: rel → ∀ x ∈ found, ∃ s, x = w.cur ++ '/' :: s := by
    intro rel h
    rw [h] at hf
    exact searchTop_below _ _ _ hc hf
  cases hn : askedNames is with
  | nil =>
    rw [hn] at below
    exact below ['*'] rfl
  | cons n ns =>
    rw [hn] at below
    simp only [dirPattern, dirFile] at below ⊢
    split
    · exact fun x _ => ⟨x, rfl⟩
    · next h => exact below n (by rw [if_neg h])

theorem shape_list {g : List Char → List Char} {found : List (List Char)} (h : ∀ x ∈ found, ∃ s, x = g s) : ∃ ss : List (List Char), found = ss.map g := by
  induction found with
  | nil => exact ⟨[], rfl⟩
  | cons x xs ih =>
    obtain ⟨s, rfl⟩ := h x (by simp)
    obtain ⟨ss, rfl⟩ := ih fun y hy => h y (by simp [hy])
    exact ⟨s :: ss, rfl⟩

theorem stat_list {g : List Char → List Char} {stat : List Char → Option DirInfo} {ss : List (List Char)}
    (h : ∀ s ∈ ss, stat (g s) ≠ none) : ∃ es : List (List Char × DirInfo), ss = es.map (·.1) ∧ ∀ e ∈ es, stat (g e.1) = some e.2 := by
  induction ss with
  | nil => exact ⟨[], rfl, by simp⟩
  | cons s ss ih =>
    obtain ⟨es, rfl, h2⟩ := ih fun y hy => h y (by simp [hy])
    cases hs : stat (g s) with
    | none => exact absurd hs (h s (by simp))
    | some i =>
      refine ⟨(s, i) :: es, rfl, ?_⟩
      intro e he
      rcases List.mem_cons.1 he with rfl | he
      · exact hs
      · exact h2 e he

theorem cmdDir_go (w : DirSys) (c : Ctx) {q : Char → Bool} (hq : q '"' = true) (hcc : q '^' = true) (hp : q '%' = true) (he : q '!' = true)
    {line : List Char} {as : List (List Char)} (hl : ParamLine q line as) {is : List DirItem} (hw : DirWords as is)
    (hn : OneName w.cur (askedNames is)) :
    cmdDir w c.ex line = (dirListing w (dirDefault w.cur (dirAfter w.cur {} is))).bind fun out => .ok (out, 0) := by
  have h := dirRead_items c w.cur (kept_line hq hcc hp he hl) hw {} (by
    rcases hn with ⟨hn, -⟩ | ⟨n, hn, hd⟩
    · exact .inl hn
    · exact .inr ⟨rfl, n, hn, hd⟩)
  unfold cmdDir
  rw [h]
  rfl

/-- With `/B` and no attributes, DIR writes the name of each file found on a line, in order, relative to the current directory unless the name asked is
absolute, and nothing else; it does not look at the files.  Partial: the name asked is no device, the path of the current directory has no joker, and it
is not the root (`C85_root`). -/
theorem C85_names_partial (w : DirSys) (c : Ctx) {q : Char → Bool} (hq : q '"' = true) (hcc : q '^' = true) (hp : q '%' = true) (he : q '!' = true)
    {line : List Char} {as : List (List Char)} (hl : ParamLine q line as) {is : List DirItem} (hw : DirWords as is)
    (hn : OneName w.cur (askedNames is)) (hc : ListDir w.cur) (hb : hasBare is = true) (ha : is.any isAttrItem = false)
    {found : List (List Char)} (hf : searchTop w.fs (dirFlags w is) w.n (dirPattern w.cur (askedNames is)) = .ok found) :
    ∃ ss : List (List Char), found = ss.map (dirFile w.cur (askedNames is)) ∧
      cmdDir w c.ex line = .ok (BareListing (if w.correct = true ∧ hasDeep is = true then found else ss), 0) := by
  obtain ⟨ss, rfl⟩ := shape_list (found_shape w hc hf)
  refine ⟨ss, rfl, ?_⟩
  rw [cmdDir_go w c hq hcc hp he hl hw hn]
  obtain ⟨h1, h2, h3, h4, h5, h6, h7, h8⟩ := dir_vars w hn
  generalize dirDefault w.cur (dirAfter w.cur {} is) = v at *
  have h0 : v.attr = 0#16 := (h5 (h6 hb ha)).1
  unfold dirListing
  rw [h7, h1, h2, h3]
  unfold dirFlags at hf
  rw [hf, Res.ok_bind, if_neg (by simp [hb]), h0]
  simp only [dirSelect_none, Res.ok_bind]
  obtain ⟨a, b, h⟩ := dirLines_bare w v (h1.trans hb) (fun f => if v.noStat = true then none else w.stat f) _ h8 ss
  rw [h, h3]
  simp [hb, Res.bind]

/-- DIR lists the files found that have the attributes asked, in order: with `/B` their names, otherwise their lines between a title and the numbers of
files and directories, or a message if no file is found; the status is 0.  Partial: as in `C85_names_partial`; the attributes are among those treated
as they should be (C34); `stat` succeeds on the files found (`C85_broken_link`); the files are below 4 gigabytes (`C85_large`). -/
theorem C85_listing_partial (w : DirSys) (c : Ctx) {q : Char → Bool} (hq : q '"' = true) (hcc : q '^' = true) (hp : q '%' = true) (he : q '!' = true)
    {line : List Char} {as : List (List Char)} (hl : ParamLine q line as) {is : List DirItem} (hw : DirWords as is)
    (hn : OneName w.cur (askedNames is)) (hc : ListDir w.cur) (hg : GoodAttrs (askedAttr is))
    {found : List (List Char)} (hf : searchTop w.fs (dirFlags w is) w.n (dirPattern w.cur (askedNames is)) = .ok found)
    (hs : ∀ f ∈ found, w.stat f ≠ none) (hz : ∀ f ∈ found, ∀ i, w.stat f = some i → i.st.size < 2 ^ 32) :
    ∃ es : List (List Char × DirInfo), found = es.map (fun e => dirFile w.cur (askedNames is) e.1) ∧
      (∀ e ∈ es, w.stat (dirFile w.cur (askedNames is) e.1) = some e.2) ∧
      ∃ out, cmdDir w c.ex line = .ok (out, 0) ∧
        (hasBare is = true → ∃ kept, kept = es.filter (fun e => Wanted (askedAttr is) e.2.st) ∧
          out = BareListing (kept.map fun e => if w.correct = true ∧ hasDeep is = true then dirFile w.cur (askedNames is) e.1 else e.1)) ∧
        (hasBare is = false → found = [] → out = '\n' :: w.title ++ '\n' :: w.noFile ++ ['\n']) ∧
        (hasBare is = false → found ≠ [] → LongListing w (es.filter fun e => Wanted (askedAttr is) e.2.st) out) := by
  obtain ⟨ss, rfl⟩ := shape_list (found_shape w hc hf)
  obtain ⟨es, rfl, h9⟩ := stat_list (g := dirFile w.cur (askedNames is)) (stat := w.stat) (ss := ss)
    (fun s hs' => hs _ (List.mem_map_of_mem hs'))
  refine ⟨es, by simp, h9, ?_⟩
  rw [cmdDir_go w c hq hcc hp he hl hw hn]
  obtain ⟨h1, h2, h3, h4, h5, h6, h7, h8⟩ := dir_vars w hn
  generalize dirDefault w.cur (dirAfter w.cur {} is) = v at *
  generalize hg' : dirFile w.cur (askedNames is) = g at *
  obtain ⟨t, ht⟩ := asked_text hw
  have hflag := fun f => flags_wanted hg ht f
  rw [← h4] at hflag
  have hsel := dirSelect_wanted (fun f => if v.noStat = true then none else w.stat f) v.attr _ hflag g es (by
    intro ha e hm
    have : v.noStat ≠ true := fun h => ha (h5 h).1
    rw [if_neg this]
    exact h9 e hm)
  unfold dirListing
  rw [h7, h1, h2, h3]
  unfold dirFlags at hf
  rw [hf, Res.ok_bind]
  have hmap : (es.map (·.1)).map g = es.map fun e => g e.1 := by simp
  rw [hmap]
  generalize hk : (es.filter fun e => decide (Wanted (askedAttr is) e.2.st)) = kept at *
  have hkm : ∀ e ∈ kept, e ∈ es := fun e hm => (List.mem_filter.1 (hk ▸ hm)).1
  cases hb : hasBare is with
  | true =>
    rw [if_neg (by simp)]
    simp only [hsel, Res.ok_bind]
    obtain ⟨a, b, h⟩ := dirLines_bare w v (h1.trans hb) (fun f => if v.noStat = true then none else w.stat f) _ h8 (kept.map (·.1))
    rw [List.map_map] at h
    have : (kept.map (g ∘ fun e => e.1)) = kept.map fun e => g e.1 := rfl
    rw [this] at h
    rw [h]
    refine ⟨_, rfl, fun _ => ⟨kept, rfl, ?_⟩, by simp, by simp⟩
    rw [h3]
    simp only [if_true, List.nil_append, List.append_nil]
    split <;> rfl
  | false =>
    have hns : v.noStat ≠ true := fun h => by have := (h5 h).2; rw [h1, hb] at this; cases this
    by_cases h0 : (es.map fun e => g e.1) = []
    · rw [if_pos ⟨h0, rfl⟩]
      refine ⟨_, rfl, by simp, fun _ _ => by simp, fun _ h => absurd h0 (by simpa using h)⟩
    · rw [if_neg (fun h => h0 h.1)]
      simp only [hsel, Res.ok_bind]
      obtain ⟨x, hx, h⟩ := dirLines_long w v (h1.trans hb) (fun f => if v.noStat = true then none else w.stat f) g h8 kept
        (fun e hm => by rw [if_neg hns]; exact h9 e (hkm e hm))
        (fun e hm _ => hz (g e.1) (by rw [hmap]; exact List.mem_map_of_mem (f := fun e => g e.1) (hkm e hm)) _ (h9 e (hkm e hm)))
      rw [h]
      refine ⟨_, rfl, by simp, fun _ h => absurd (by simpa using h) h0, fun _ _ => ⟨x, hx, ?_⟩⟩
      rw [natText_toString, natText_toString]
      simp [tabs4]


/-! ### The current directory -/

theorem star_all {fs : FileSys} (hfs : FileSysLaws fs) (u hide : Bool) (d : Option (List Char)) :
    (shown fs hide d).filter (wildMatch true u ['*']) = shown fs hide d := by
  refine List.filter_eq_self.2 fun e he => ?_
  have := names_of hfs _ he
  cases e with
  | nil => exact absurd rfl this.1
  | cons c r => simp [wildMatch]

theorem curdir_cut {cur : List Char} (hc : ListDir cur) (ho : OneSep cur) : ∃ c, cur = '/' :: c ∧ c ≠ [] ∧ c.head? ≠ some '/' ∧
    OneSep (c ++ '/' :: ['*']) ∧ OneSep (cur ++ '/' :: ['*']) := by
  have key : OneSep (cur ++ '/' :: ['*']) := by
    rintro ⟨a, b, h⟩
    rcases List.append_eq_append_iff.1 h with ⟨x, h1, h2⟩ | ⟨x, h1, h2⟩
    · exact ho ⟨a, x, h1.symm⟩
    · rcases List.append_eq_append_iff.1 h1 with ⟨y, h3, h4⟩ | ⟨y, h3, h4⟩
      · match y, h4 with
        | [], h4 =>
          rw [List.nil_append] at h4
          subst h4
          simp at h2
        | ['/'], h4 =>
          subst h3
          exact hc.last (by simp)
        | ['/', '/'], h4 =>
          subst h3
          exact ho ⟨a, [], by simp⟩
        | _ :: _ :: _ :: _, h4 => simp at h4
      · subst h4
        match y with
        | [] => simp at h2
        | c :: r =>
          have := congrArg List.length h2
          simp only [List.length_append, List.length_cons, List.length_nil] at this
          omega
  obtain ⟨h1, h2⟩ := hc.rooted
  cases cur with
  | nil => cases h1
  | cons a c =>
    cases h1
    refine ⟨c, rfl, ?_, h2, ?_, key⟩
    · rintro rfl; exact hc.last rfl
    · exact fun h => key (h.trans ⟨['/'], [], by simp⟩)

/-- The files of the current directory. -/
theorem search_here {fs : FileSys} (hfs : FileSysLaws fs) {cur : List Char} (hc : ListDir cur) (ho : OneSep cur) (hd : fs.isDir cur = true)
    (hx : fs.isReg (cur ++ ['/', '*']) = false ∧ fs.isDir (cur ++ ['/', '*']) = false) (fl : SearchFlags) (hr : fl.recursive = false)
    (hf : fl.first = false) (n : Nat) (hn : cur.length + 2 < n) :
    searchTop fs fl n (cur ++ ['/', '*']) = .ok ((shown fs fl.noPseudo (some cur)).map fun e => cur ++ '/' :: e) := by
  obtain ⟨c, e, h0, h1, h2, h3⟩ := curdir_cut hc ho
  rw [C55_find_partial fs hfs fl hr _ n (by simpa using hn) h3 (fun _ => hx.2) (fun _ => hx), if_neg (by simp [hf])]
  congr 1
  have ec : inDir (some ['/']) c = cur := by rw [inDir_root, e]
  have : matching fs (wildMatch true fl.utf8) fl.noPseudo (cur ++ ['/', '*']) =
      selected fs (wildMatch true fl.utf8) fl.noPseudo (here fs (wildMatch true fl.utf8) fl.noPseudo) (some ['/']) (levels (c ++ '/' :: ['*'])) := by
    rw [e]; rfl
  rw [this, selected_prefix hfs _ _ _ c ['*'] (fun d hd => hc.plain d (by rw [e]; simp [hd])) h2 h1 h0, ec, if_pos hd]
  show here fs _ _ (some cur) ['*'] = _
  rw [here, if_pos (by decide), star_all hfs]
  refine List.map_congr_left fun x _ => ?_
  simp [inDir, hc.last]

/-- All files below the current directory, each once. -/
theorem search_below {fs : FileSys} (hfs : FileSysLaws fs) {cur : List Char} (hc : ListDir cur) (ho : OneSep cur) (hd : fs.isDir cur = true)
    (hx : fs.isReg (cur ++ ['/', '*']) = false ∧ fs.isDir (cur ++ ['/', '*']) = false) (fl : SearchFlags) (hr : fl.recursive = true)
    (hf : fl.first = false) (k : Nat) (hk : ∀ d, Depth fs k d) (n : Nat) (hn : cur.length + 2 + k < n) :
    ∃ found, searchTop fs fl n (cur ++ ['/', '*']) = .ok found ∧ found.Nodup ∧
      ∀ x, x ∈ found ↔ ∃ d e, Below fs (some cur) d ∧ e ∈ shown fs fl.noPseudo d ∧ x = inDir d e := by
  obtain ⟨c, e, h0, h1, h2, h3⟩ := curdir_cut hc ho
  have hlast : ∀ l, (levels (cur ++ ['/', '*'])).getLast? = some l → WildIn l := by
    have : ∀ s : List Char, (levels (s ++ ['/', '*'])).getLast? = some ['*'] := by
      intro s
      induction hs : s.length using Nat.strongRecOn generalizing s with
      | ind m ih =>
      rcases sep_first s with h | ⟨a, b, rfl, h⟩
      · rw [levels_sep h]; rfl
      · have e1 : levels (a ++ '/' :: b ++ ['/', '*']) = a :: levels (b ++ ['/', '*']) := by
          rw [List.append_assoc, List.cons_append, levels_sep h]
        rw [e1, List.getLast?_cons_of_ne_nil (levels_ne_nil _)]
        exact ih b.length (by rw [← hs]; simp; omega) b rfl
    intro l hl
    rw [this] at hl
    cases hl
    decide
  have hfind := C55_recursive_partial fs hfs fl hr hf k hk (cur ++ ['/', '*']) n (by simpa using hn) h3 hx hlast
  have ec : inDir (some ['/']) c = cur := by rw [inDir_root, e]
  have hm : matchingBelow fs (wildMatch true fl.utf8) fl.noPseudo fl.callback k (cur ++ ['/', '*']) =
      deep fs (wildMatch true fl.utf8) fl.noPseudo fl.callback k (some cur) ['*'] := by
    have : matchingBelow fs (wildMatch true fl.utf8) fl.noPseudo fl.callback k (cur ++ ['/', '*']) =
        selected fs (wildMatch true fl.utf8) fl.noPseudo (deep fs (wildMatch true fl.utf8) fl.noPseudo fl.callback k) (some ['/'])
          (levels (c ++ '/' :: ['*'])) := by
      rw [e]; rfl
    rw [this, selected_prefix hfs _ _ _ c ['*'] (fun d hd => hc.plain d (by rw [e]; simp [hd])) h2 h1 h0, ec, if_pos hd]
    rfl
  rw [hm] at hfind
  refine ⟨_, hfind, ?_, ?_⟩
  · have := deep_ordered hfs (wildMatch true fl.utf8) fl.noPseudo fl.callback k (some cur) ['*']
    exact this.imp fun h => h.1
  · intro x
    rw [C55_below _ _ _ _ _ _ (hk _)]
    constructor
    · rintro ⟨d, e, h1, h2, -, h4⟩
      exact ⟨d, e, h1, h2, h4⟩
    · rintro ⟨d, e, h1, h2, h4⟩
      refine ⟨d, e, h1, h2, ?_, h4⟩
      have : e ∈ (shown fs fl.noPseudo d).filter (wildMatch true fl.utf8 ['*']) := by rw [star_all hfs]; exact h2
      exact (List.mem_filter.1 this).2

/-- `DIR /B` writes the names of the files of the current directory, in the order in which the system gives them.  Partial: see `C85_names_partial`; no file
is called `*`. -/
theorem C85_here_partial (w : DirSys) (hfs : FileSysLaws w.fs) (c : Ctx) {q : Char → Bool} (hq : q '"' = true) (hcc : q '^' = true)
    (hp : q '%' = true) (he : q '!' = true) {line : List Char} {as : List (List Char)} (hl : ParamLine q line as) {is : List DirItem}
    (hw : DirWords as is) (hn : askedNames is = []) (hlen : w.cur.length < 4094) (hc : ListDir w.cur) (ho : OneSep w.cur)
    (hd : w.fs.isDir w.cur = true) (hx : w.fs.isReg (w.cur ++ ['/', '*']) = false ∧ w.fs.isDir (w.cur ++ ['/', '*']) = false)
    (hb : hasBare is = true) (ha : is.any isAttrItem = false) (hr : hasDeep is = false) (hdep : w.cur.length + 2 < w.n) :
    cmdDir w c.ex line = .ok (BareListing (shown w.fs true (some w.cur)), 0) := by
  have hs := search_here hfs hc ho hd hx (dirFlags w is) hr rfl w.n hdep
  obtain ⟨ss, h1, h2⟩ := C85_names_partial w c hq hcc hp he hl hw (.inl ⟨hn, hlen⟩) hc hb ha (by rw [hn]; exact hs)
  rw [hn] at h1
  have e : ss = shown w.fs true (some w.cur) := by
    have hinj : ∀ (a b : List (List Char)), a.map (fun e => w.cur ++ '/' :: e) = b.map (fun e => w.cur ++ '/' :: e) → a = b := by
      intro a b h
      exact List.map_inj_right (fun x y hxy => by simpa using hxy) |>.1 h
    have : (dirFlags w is).noPseudo = true := hb
    rw [this] at h1
    exact (hinj _ _ h1).symm
  rw [h2, if_neg (by simp [hr]), e]

/-- `DIR /B /S` writes the name of each file below the current directory once: with its whole path in the mode compatible with cmd.exe, otherwise relative to
the current directory. -/
theorem C85_deep_partial (w : DirSys) (hfs : FileSysLaws w.fs) (c : Ctx) {q : Char → Bool} (hq : q '"' = true) (hcc : q '^' = true)
    (hp : q '%' = true) (he : q '!' = true) {line : List Char} {as : List (List Char)} (hl : ParamLine q line as) {is : List DirItem}
    (hw : DirWords as is) (hn : askedNames is = []) (hlen : w.cur.length < 4094) (hc : ListDir w.cur) (ho : OneSep w.cur)
    (hd : w.fs.isDir w.cur = true) (hx : w.fs.isReg (w.cur ++ ['/', '*']) = false ∧ w.fs.isDir (w.cur ++ ['/', '*']) = false)
    (hb : hasBare is = true) (ha : is.any isAttrItem = false) (hr : hasDeep is = true) (k : Nat) (hk : ∀ d, Depth w.fs k d)
    (hdep : w.cur.length + 2 + k < w.n) :
    ∃ ss, cmdDir w c.ex line = .ok (BareListing ss, 0) ∧ ss.Nodup ∧
      ∀ s, s ∈ ss ↔ ∃ d e, Below w.fs (some w.cur) d ∧ e ∈ shown w.fs true d ∧
        (if w.correct = true then s = inDir d e else w.cur ++ '/' :: s = inDir d e) := by
  obtain ⟨found, hs, hnd, hmem⟩ := search_below hfs hc ho hd hx (dirFlags w is) hr rfl k hk w.n hdep
  obtain ⟨ss, rfl, h2⟩ := C85_names_partial w c hq hcc hp he hl hw (.inl ⟨hn, hlen⟩) hc hb ha (by rw [hn]; exact hs)
  have hno : (dirFlags w is).noPseudo = true := hb
  rw [hno] at hmem
  rw [hn] at h2 hnd hmem
  cases hcor : w.correct with
  | true =>
    refine ⟨_, h2, ?_, ?_⟩
    · rw [if_pos ⟨hcor, hr⟩]; exact hnd
    · intro s
      rw [if_pos ⟨hcor, hr⟩]
      simp only [if_true]
      exact hmem s
  | false =>
    refine ⟨_, h2, ?_, ?_⟩
    · rw [if_neg (by simp [hcor])]
      exact (List.pairwise_map.1 hnd).imp fun h e => h (by rw [e])
    · intro s
      rw [if_neg (by simp [hcor])]
      simp only [Bool.false_eq_true, if_false]
      constructor
      · intro h
        exact (hmem _).1 (List.mem_map_of_mem h)
      · intro h
        obtain ⟨t, ht, e⟩ := List.mem_map.1 ((hmem _).2 h)
        have : t = s := by simpa [dirFile] using e
        rwa [← this]


/-! ### Help and a second name -/

/-- `/?` shows the help, whatever is asked before or after it; nothing is listed. -/
theorem C85_help (w : DirSys) (c : Ctx) {q : Char → Bool} (hq : q '"' = true) (hcc : q '^' = true) (hp : q '%' = true) (he : q '!' = true)
    {line : List Char} {as rest : List (List Char)} (hl : ParamLine q line (as ++ ['/', '?'] :: rest)) {is : List DirItem} (hw : DirWords as is)
    (hn : OneName w.cur (askedNames is)) : cmdDir w c.ex line = .ok (w.help, 0) := by
  obtain ⟨l', h1, h2⟩ := dirRead_prefix c w.cur (kept_line hq hcc hp he hl) hw {} (by
    rcases hn with ⟨hn, -⟩ | ⟨n, hn, hd⟩
    · exact .inl hn
    · exact .inr ⟨rfl, n, hn, hd⟩)
  rcases kept_next c h1 with ⟨e, -⟩ | ⟨a', as', t', e, hn, hk', hl⟩
  · cases e
  · cases e
    unfold cmdDir
    rw [h2, dirRead, hn]
    simp only [if_pos hl]
    rfl

/-- A second name is refused with the status 4 and nothing is listed. -/
theorem C85_second (w : DirSys) (c : Ctx) {q : Char → Bool} (hq : q '"' = true) (hcc : q '^' = true) (hp : q '%' = true) (he : q '!' = true)
    {line : List Char} {as rest : List (List Char)} {m : List Char} (hl : ParamLine q line (as ++ m :: rest)) {is : List DirItem} (hw : DirWords as is)
    {n : List Char} (hn : askedNames is = [n]) (hd : DirName w.cur n) (hm : DirWord m (.name m)) : cmdDir w c.ex line = .ok ([], 4) := by
  obtain ⟨l', h1, h2⟩ := dirRead_prefix c w.cur (kept_line hq hcc hp he hl) hw {} (.inr ⟨rfl, n, hn, hd⟩)
  have h3 : (dirAfter w.cur {} is).name ≠ [] := by
    rw [(dirAfter_name w.cur is n hn {}).1]
    split
    · exact hd.2.2.2
    · simp
  rcases kept_next c h1 with ⟨e, -⟩ | ⟨a', as', t', e, hn, hk', hl⟩
  · cases e
  · cases e
    unfold cmdDir
    rw [h2, dirRead, hn]
    simp only [if_pos hl]
    rw [dirParam_second h3 hm]
    rfl

/-! ### Violations -/

/-- A file found that does not exist any more, or a symbolic link to nothing: a listing with sizes reads memory nobody wrote. -/
theorem C85_broken_link (w : DirSys) (c : Ctx) {q : Char → Bool} (hq : q '"' = true) (hcc : q '^' = true) (hp : q '%' = true) (he : q '!' = true)
    {line : List Char} {as : List (List Char)} (hl : ParamLine q line as) {is : List DirItem} (hw : DirWords as is)
    (hn : OneName w.cur (askedNames is)) (hc : ListDir w.cur) (hb : hasBare is = false) (hg : askedAttr is = [])
    {f : List Char} {found : List (List Char)} (hf : searchTop w.fs (dirFlags w is) w.n (dirPattern w.cur (askedNames is)) = .ok (f :: found))
    (hs : w.stat f = none) : cmdDir w c.ex line = .ub := by
  rw [cmdDir_go w c hq hcc hp he hl hw hn]
  obtain ⟨h1, h2, h3, h4, h5, h6, h7, h8⟩ := dir_vars w hn
  generalize dirDefault w.cur (dirAfter w.cur {} is) = v at *
  have h0 : v.attr = 0#16 := by rw [h4, hg]; rfl
  unfold dirListing
  rw [h7, h1, h2, h3]
  unfold dirFlags at hf
  rw [hf, Res.ok_bind, if_neg (by simp), h0]
  simp only [dirSelect_none, Res.ok_bind]
  rw [dirLines]
  have : dirLine w v (if v.noStat = true then none else w.stat f) f = .ub := by
    unfold dirLine
    rw [if_neg (by simp [h1, hb]), hs]
    simp
  rw [this]
  rfl

/-- The size shown is the one modulo 2^32. -/
theorem C85_large (i j : DirInfo) (hi : i.st.dir = false) (hj : j.st.dir = false) (h : i.st.size % 2 ^ 32 = j.st.size % 2 ^ 32) :
    dirColumns i = dirColumns j := by
  rw [dirColumns, dirColumns, if_neg (by rw [hi]; simp), if_neg (by rw [hj]; simp), h]

/-- So `5,00 o` is shown for a file of 4294967301 bytes. -/
example : dirColumns ⟨⟨false, false, false, false, false, 4294967301⟩, []⟩ = "       5,00 o\t       ".toList :=
  (C85_large _ ⟨⟨false, false, false, false, false, 5⟩, []⟩ rfl rfl (by decide)).trans (by decide +kernel)

/-- A directory `h` with `ab`, `ac` and a directory `d` with `f`, and beside it a directory `?` with `q`. -/
def homeFs : FileSys := treeFs [['/', 'h', '/', 'a', 'b'], ['/', 'h', '/', 'a', 'c'], ['/', 'h', '/', 'd', '/', 'f'], ['/', '?', '/', 'q']]
  [(['/'], [['.'], ['.', '.'], ['h'], ['?']]), (['/', 'h'], [['.'], ['.', '.'], ['a', 'b'], ['d'], ['a', 'c']]),
   (['/', 'h', '/', 'd'], [['.'], ['.', '.'], ['f']]), (['/', '?'], [['.'], ['.', '.'], ['q']])]

theorem homeFs_laws : FileSysLaws homeFs := treeFs_laws _ _ (by decide) (by decide) (by decide)

/-- A system with these files, whose sizes are the lengths of their paths, in a current directory. -/
def homeSys (cur : List Char) (correct : Bool) : DirSys :=
  ⟨cur, homeFs, true, 12, fun p => some ⟨⟨false, false, false, homeFs.isDir p || p.getLast? == some '.', false, p.length⟩, ['N', 'o', 'w']⟩, ['T'], ['N'], ['F'], ['D'], ['H'],
    correct⟩

def dirQuote (c : Char) : Bool := c == '"' || c == '^' || c == '%' || c == '!'

theorem slash_b : DirWord ['/', 'b'] .bare := .bare (by decide)

theorem slash_s : DirWord ['/', 'S'] .deep := .deep (by decide)

theorem line_b : ParamLine dirQuote [' ', '/', 'b'] [['/', 'b']] := .last (w := [' ']) (by decide) (.word (by decide) (by decide) (by decide) (by decide))

theorem line_bs : ParamLine dirQuote [' ', '/', 'b', ' ', '/', 'S'] [['/', 'b'], ['/', 'S']] :=
  .cons (w := [' ']) (x := ['/', 'b']) (b := ' ') (by decide) (.word (by decide) (by decide) (by decide) (by decide)) (by decide)
    (.last (w := []) (x := ['/', 'S']) (by decide) (.word (by decide) (by decide) (by decide) (by decide)))

/-- In the root the first letter of each name is missing; in a directory whose path has a joker, the files of other directories are shown too. -/
theorem C85_root (c : Ctx) :
    cmdDir (homeSys ['/'] false) c.ex [' ', '/', 'b'] = .ok (BareListing [[], []], 0) ∧
    (shown homeFs true (some ['/'])) = [['h'], ['?']] ∧
    cmdDir (homeSys ['/', '?'] false) c.ex [' ', '/', 'b'] = .ok (BareListing [['a', 'b'], ['d'], ['a', 'c'], ['q']], 0) ∧
    (shown homeFs true (some ['/', '?'])) = [['q']] := by
  refine ⟨?_, by decide +kernel, ?_, by decide +kernel⟩
  · rw [cmdDir_go _ c (by decide) (by decide) (by decide) (by decide) line_b (.cons slash_b .nil) (.inl ⟨rfl, by decide⟩)]
    decide +kernel
  · rw [cmdDir_go _ c (by decide) (by decide) (by decide) (by decide) line_b (.cons slash_b .nil) (.inl ⟨rfl, by decide⟩)]
    decide +kernel


/-! ### Cases meeting the hypotheses -/

theorem curdir_h : ListDir ['/', 'h'] := ⟨by decide, by decide, by decide⟩

theorem onesep_h : OneSep ['/', 'h'] := by decide

/-- `dir /b` in `h`. -/
example (c : Ctx) : cmdDir (homeSys ['/', 'h'] false) c.ex [' ', '/', 'b'] = .ok (['a', 'b', '\n', 'd', '\n', 'a', 'c', '\n'], 0) :=
  C85_here_partial (homeSys ['/', 'h'] false) homeFs_laws c (q := dirQuote) (by decide) (by decide) (by decide) (by decide) line_b (.cons slash_b .nil) rfl
    (by decide) curdir_h onesep_h (by decide) (by decide) (by decide) (by decide) (by decide) (by decide)

theorem homeFs_depth (d : Option (List Char)) : Depth homeFs 4 d := by
  have hd : ∀ k, Depth homeFs (k + 1) (some ['/', 'h', '/', 'd']) := by
    intro k e he h1 h2
    exfalso
    have : ∀ e ∈ namesIn homeFs (some ['/', 'h', '/', 'd']), ¬ Dots e → ¬ homeFs.isDir (inDir (some ['/', 'h', '/', 'd']) e) = true := by decide
    exact this e he h1 h2
  have hq : ∀ k, Depth homeFs (k + 1) (some ['/', '?']) := by
    intro k e he h1 h2
    exfalso
    have : ∀ e ∈ namesIn homeFs (some ['/', '?']), ¬ Dots e → ¬ homeFs.isDir (inDir (some ['/', '?']) e) = true := by decide
    exact this e he h1 h2
  have hh : ∀ k, Depth homeFs (k + 2) (some ['/', 'h']) := by
    intro k e he h1 h2
    have : ∀ e ∈ namesIn homeFs (some ['/', 'h']), ¬ Dots e → homeFs.isDir (inDir (some ['/', 'h']) e) = true →
      inDir (some ['/', 'h']) e = ['/', 'h', '/', 'd'] := by decide
    rw [this e he h1 h2]
    exact hd k
  have hr : ∀ k, Depth homeFs (k + 3) (some ['/']) := by
    intro k e he h1 h2
    have : ∀ e ∈ namesIn homeFs (some ['/']), ¬ Dots e → homeFs.isDir (inDir (some ['/']) e) = true →
      inDir (some ['/']) e = ['/', 'h'] ∨ inDir (some ['/']) e = ['/', '?'] := by decide
    rcases this e he h1 h2 with e | e <;> rw [e]
    · exact hh k
    · exact hq (k + 1)
  cases d with
  | none =>
    intro e he h1 h2
    have : ∀ e ∈ namesIn homeFs none, ¬ Dots e → False := by decide
    exact (this e he h1).elim
  | some p =>
    by_cases h1 : p = ['/']
    · subst h1; exact hr 1
    · by_cases h2 : p = ['/', 'h']
      · subst h2; exact hh 2
      · by_cases h3 : p = ['/', 'h', '/', 'd']
        · subst h3; exact hd 3
        · by_cases h4 : p = ['/', '?']
          · subst h4; exact hq 3
          · exact treeFs_depth _ _ _ (by simp [h1, h2, h3, h4]) 3

/-- `dir /b /S` in `h`: `d/f` is among the names. -/
example (c : Ctx) : ∃ ss, cmdDir (homeSys ['/', 'h'] false) c.ex [' ', '/', 'b', ' ', '/', 'S'] = .ok (BareListing ss, 0) ∧ ss.Nodup ∧ ['d', '/', 'f'] ∈ ss := by
  obtain ⟨ss, h1, h2, h3⟩ := C85_deep_partial (homeSys ['/', 'h'] false) homeFs_laws c (q := dirQuote) (by decide) (by decide) (by decide) (by decide) line_bs
    (.cons slash_b (.cons slash_s .nil)) rfl (by decide) curdir_h onesep_h (by decide) (by decide) (by decide) (by decide) (by decide) 4 homeFs_depth (by decide)
  refine ⟨ss, h1, h2, (h3 _).2 ⟨some ['/', 'h', '/', 'd'], ['f'], ?_, by decide +kernel, by decide⟩⟩
  exact .down (d := some ['/', 'h']) (e := ['d']) (by decide) (by decide) (by decide) (.here _)

/-- `dir ?? /a-d` in `h`: a long listing of `ab` and `ac`; `/?` and a second name. -/
theorem line_att : ParamLine dirQuote "?? /a-d".toList [['?', '?'], ['/', 'a', '-', 'd']] :=
  .cons (w := []) (x := ['?', '?']) (b := ' ') (by decide) (.word (by decide) (by decide) (by decide) (by decide)) (by decide)
    (.last (w := []) (x := ['/', 'a', '-', 'd']) (by decide) (.word (by decide) (by decide) (by decide) (by decide)))

theorem word_q : DirWord ['?', '?'] (.name ['?', '?']) := .name (by decide) (by decide) (by decide) (by intro b t h; cases h)

theorem word_att : DirWord ['/', 'a', '-', 'd'] (.attr [(.dir, false)]) := .attr (by decide) (.absent .dir (by decide) .nil)

theorem name_q : DirName ['/', 'h'] ['?', '?'] := by
  refine ⟨by decide, not_portLike ?_, by decide, by decide⟩
  rintro k ⟨x, hx⟩ hl
  have := congrArg List.length hx
  simp only [List.length_append, hl, List.length_cons, List.length_nil] at this
  omega

example (c : Ctx) : cmdDir (homeSys ['/', 'h'] false) c.ex "?? /a-d".toList =
    .ok ("\nT\nNow        5,00 o\t       \tab\nNow        5,00 o\t       \tac\n\t\t\t\t2 F\n\t\t\t\t0 D\n".toList, 0) := by
  rw [cmdDir_go _ c (q := dirQuote) (by decide) (by decide) (by decide) (by decide) line_att (.cons word_q (.cons word_att .nil))
    (.inr ⟨_, rfl, name_q⟩)]
  decide +kernel

example : GoodAttrs (askedAttr [.name ['?', '?'], .attr [(.dir, false)]]) ∧
    searchTop homeFs (dirFlags (homeSys ['/', 'h'] false) [.name ['?', '?'], .attr [(.dir, false)]]) 12 ['/', 'h', '/', '?', '?'] =
      .ok [['/', 'h', '/', '.', '.'], ['/', 'h', '/', 'a', 'b'], ['/', 'h', '/', 'a', 'c']] :=
  ⟨⟨by intro a; cases a <;> decide, by decide, by decide⟩, by decide +kernel⟩

end PBat
