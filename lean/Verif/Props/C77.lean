import Verif.Model.Completion
import Verif.Spec.Completion
import Verif.Lemmas.LineRun

/-!
C77: the Tab key completes the name of a file.
-/

namespace PBat
open Spec

theorem commonMatch_take (p q : List Nat) : p.take (commonMatch p q) <+: q := by
  induction p generalizing q with
  | nil => simp
  | cons a p ih =>
    cases q with
    | nil => simp [commonMatch]
    | cons b q =>
      simp only [commonMatch]
      split
      · subst_vars; simpa using ih q
      · simp

theorem commonMatch_le (p q : List Nat) : commonMatch p q ≤ p.length := by
  induction p generalizing q with
  | nil => simp [commonMatch]
  | cons a p ih =>
    cases q with
    | nil => simp [commonMatch]
    | cons b q =>
      simp only [commonMatch]
      split
      · have := ih q; simp; omega
      · simp

theorem commonMatch_max {p q c : List Nat} (h1 : c <+: p) (h2 : c <+: q) :
    c.length ≤ commonMatch p q := by
  induction c generalizing p q with
  | nil => simp
  | cons a c ih =>
    obtain ⟨r1, rfl⟩ := h1
    obtain ⟨r2, rfl⟩ := h2
    simp only [List.cons_append, commonMatch, if_true, List.length_cons]
    have := ih (p := c ++ r1) (q := c ++ r2) (by simp) (by simp)
    omega

/-- What the search for the longest match returns. -/
theorem longestMatch_spec {p name : List Nat} (hp : name <+: p) :
    ∀ {fs : List (List Nat)} {l : Option Nat}, (∀ f ∈ fs, name <+: f) → fs ≠ [] →
    (∀ x, l = some x → name.length ≤ x) →
    ∃ m, longestMatch p name.length l fs = some m ∧ (∀ f ∈ fs, m ≤ commonMatch p f) ∧
      (∀ x, l = some x → m ≤ x) ∧
      ((∃ f ∈ fs, m = commonMatch p f) ∨ l = some m) := by
  intro fs
  induction fs with
  | nil => intro l _ h; exact absurd rfl h
  | cons f fs ih =>
    intro l hf _ hl
    have hmin : ∀ g ∈ f :: fs, name.length ≤ commonMatch p g := fun g hg =>
      commonMatch_max hp (hf g hg)
    rw [longestMatch]
    generalize hv : shorter l (commonMatch p f) = v
    unfold shorter at hv
    have hvle : v ≤ commonMatch p f := by
      subst hv; split
      · omega
      · split <;> omega
    have hvl : ∀ x, l = some x → v ≤ x := by
      intro x hx; subst hx; subst hv; dsimp only; split <;> omega
    have hvge : name.length ≤ v := by
      have := hmin f (by simp)
      subst hv; split
      · exact this
      · have := hl _ rfl; split <;> omega
    have hvin : v = commonMatch p f ∨ l = some v := by
      subst hv; split
      · exact .inl rfl
      · split
        · exact .inl rfl
        · exact .inr rfl
    split
    · rename_i he
      subst he
      refine ⟨_, rfl, hmin, hvl, ?_⟩
      rcases hvin with h | h
      · exact .inl ⟨f, by simp, h⟩
      · exact .inr h
    · cases fs with
      | nil =>
        refine ⟨v, rfl, by simpa using hvle, hvl, ?_⟩
        rcases hvin with h | h
        · exact .inl ⟨f, by simp, h⟩
        · exact .inr h
      | cons g fs =>
        obtain ⟨m, h1, h2, h3, h4⟩ := ih (l := some v) (fun x hx => hf x (by simp [hx]))
          (by simp) (by intro x hx; simp at hx; omega)
        have hmv := h3 v rfl
        refine ⟨m, h1, ?_, fun x hx => by have := hvl x hx; omega, ?_⟩
        · intro x hx
          rcases List.mem_cons.1 hx with rfl | hx
          · omega
          · exact h2 x hx
        · rcases h4 with ⟨x, hx, e⟩ | h4
          · exact .inl ⟨x, by simp [hx], e⟩
          · simp at h4; subst h4
            rcases hvin with h | h
            · exact .inl ⟨f, by simp, h⟩
            · exact .inr h

/-- The answer of completion to the text typed: nothing when no file begins with it; what is
missing to the name of the only file; what is missing to the longest text all the files have in
common; the list when there is nothing to add.  Missing: a search that finds files which do not
begin with the text, `C77_case` and `C77_wild`. -/
theorem C77_answer_partial (full : List Nat → List Nat) (find : List Nat → List (List Nat))
    (item : List Nat) (hf : ∀ f ∈ find (full item ++ [42]), full item <+: f) :
    (find (full item ++ [42]) = [] ∧ handler full find item = .ok .none) ∨
    ∃ c s, LongestCommon (find (full item ++ [42])) c ∧ c = full item ++ s ∧
      ((handler full find item = .ok (.one s) ∧
          (s ≠ [] ∨ ∃ f, find (full item ++ [42]) = [f])) ∨
        (handler full find item = .ok .many ∧ s = [] ∧
          2 ≤ (find (full item ++ [42])).length)) := by
  unfold handler
  dsimp only
  cases hfs : find (full item ++ [42]) with
  | nil => exact .inl ⟨rfl, rfl⟩
  | cons p fs =>
    rw [hfs] at hf
    right
    have hp := hf p (by simp)
    cases fs with
    | nil =>
      obtain ⟨s, rfl⟩ := hp
      refine ⟨full item ++ s, s, ⟨by simp, fun c' hc' => hc' _ (by simp)⟩, rfl, .inl ⟨?_, .inr ⟨_, rfl⟩⟩⟩
      simp [longestMatch]
    | cons g fs =>
      obtain ⟨m, h1, h2, -, h4⟩ := longestMatch_spec hp (fs := g :: fs) (l := none)
        (fun x hx => hf x (by simp [hx])) (by simp) (by simp)
      dsimp only
      rw [h1]
      have hm : m ≤ p.length := by
        have := h2 g (by simp); have := commonMatch_le p g; omega
      have hge : (full item).length ≤ m := by
        rcases h4 with ⟨x, hx, e⟩ | h
        · rw [e]; exact commonMatch_max hp (hf x (by simp [hx]))
        · simp at h
      have hlong : LongestCommon (p :: g :: fs) (p.take m) := by
        constructor
        · intro f hff
          rcases List.mem_cons.1 hff with rfl | hff
          · exact List.take_prefix _ _
          · have := commonMatch_take p f
            exact List.IsPrefix.trans (List.take_prefix_take_left (h2 f hff)) this
        · intro c' hc'
          rcases h4 with ⟨x, hx, e⟩ | h
          · have hl := commonMatch_max (hc' p (by simp)) (hc' x (by simp [hx]))
            obtain ⟨r, hr⟩ := hc' p (by simp)
            rw [← e] at hl
            have : c' = p.take c'.length := by rw [← hr]; simp
            rw [this]
            exact List.take_prefix_take_left hl
          · simp at h
      have hpre : full item = p.take (full item).length := by
        obtain ⟨r, hr⟩ := hp; rw [← hr]; simp
      have hcs : p.take m = full item ++ (p.take m).drop (full item).length := by
        conv => lhs; rw [← List.take_append_drop (full item).length (p.take m)]
        rw [List.take_take, Nat.min_eq_left hge, ← hpre]
      refine ⟨p.take m, (p.take m).drop (full item).length, hlong, hcs, ?_⟩
      dsimp only
      by_cases hgt : m > (full item).length
      · rw [if_pos hgt]
        refine .inl ⟨rfl, .inl ?_⟩
        intro e
        have := congrArg List.length e
        rw [List.length_drop, List.length_take, List.length_nil] at this
        omega
      · rw [if_neg hgt]
        refine .inr ⟨rfl, ?_, by simp⟩
        rw [List.drop_eq_nil_iff, List.length_take]; omega

/-! ### The word before the cursor -/

theorem itemLen_word {w : List Nat} (hw : BareWord w) {a : List Nat} (ha : BeforeWord a) :
    itemLen false (w.reverse ++ a.reverse) = w.length := by
  have hend : itemLen false a.reverse = 0 := by
    rcases ha with rfl | ⟨a', c, rfl, hc⟩
    · rfl
    · simp [wordEnds] at hc
      rw [List.reverse_append, List.reverse_singleton, List.singleton_append, itemLen]
      rw [if_neg (by omega), if_pos ⟨rfl, hc⟩]
  have : ∀ v : List Nat, (∀ c ∈ v, c ≠ 0 ∧ c ≠ 34 ∧ c ∉ wordEnds) →
      itemLen false (v ++ a.reverse) = v.length := by
    intro v
    induction v with
    | nil => intro _; exact hend
    | cons b r ih =>
      intro h
      obtain ⟨-, h2, h3⟩ := h b (by simp)
      simp only [wordEnds, List.mem_cons, List.not_mem_nil, or_false, not_or] at h3
      rw [List.cons_append, itemLen, if_neg h2, if_neg (by omega), ih (fun c hc => h c (by simp [hc]))]
      rfl
  rw [this _ (by intro c hc; exact hw c (by simpa using hc)), List.length_reverse]

theorem lnStr_id {s : List Nat} (h : ∀ c ∈ s, c ≠ 0) : lnStr s = s := by
  unfold lnStr
  induction s with
  | nil => rfl
  | cons c r ih =>
    rw [List.takeWhile_cons_of_pos (by simpa using h c (by simp)),
      ih (fun x hx => h x (by simp [hx]))]

/-- The word before the cursor is what is completed, when it has no quotes.  Missing:
`C77_quote`. -/
theorem C77_word_partial {a w : List Nat} (ha : BeforeWord a) (hw : BareWord w) (b : List Nat)
    (hb : b.head? ≠ some 34) : completionItem (a ++ w) b = w := by
  unfold completionItem
  have hq : decide (b.head? = some 34) = false := by simpa using hb
  rw [hq, List.reverse_append, itemLen_word hw ha]
  have : (a ++ w).drop ((a ++ w).length - w.length) = w := by
    rw [List.length_append, Nat.add_sub_cancel, List.drop_left]
  simp only [this]
  split
  · rename_i r
    exact absurd rfl (hw 34 (by simp)).2.1
  · exact lnStr_id (fun c hc => (hw c hc).1)

theorem itemLen_shut {w : List Nat} (hw : ∀ c ∈ w, c ≠ 34) {a : List Nat} (ha : BeforeWord a) :
    itemLen true (w.reverse ++ 34 :: a.reverse) = w.length + 1 := by
  have hend : itemLen false a.reverse = 0 := by
    rcases ha with rfl | ⟨a', c, rfl, hc⟩
    · rfl
    · simp [wordEnds] at hc
      rw [List.reverse_append, List.reverse_singleton, List.singleton_append, itemLen]
      rw [if_neg (by omega), if_pos ⟨rfl, hc⟩]
  have : ∀ v : List Nat, (∀ c ∈ v, c ≠ 34) →
      itemLen true (v ++ 34 :: a.reverse) = v.length + 1 := by
    intro v
    induction v with
    | nil => intro _; simp [itemLen, hend]
    | cons b r ih =>
      intro h
      rw [List.cons_append, itemLen, if_neg (h b (by simp)), if_neg (by simp),
        ih (fun c hc => h c (by simp [hc]))]
      rfl
  rw [this _ (by intro c hc; exact hw c (by simpa using hc)), List.length_reverse]

/-- Between quotes, with the cursor at the closing one, the text may have blanks. -/
theorem C77_quoted_word {a w : List Nat} (ha : BeforeWord a) (hw : ∀ c ∈ w, c ≠ 0 ∧ c ≠ 34)
    (b : List Nat) : completionItem (a ++ 34 :: w) (34 :: b) = w := by
  unfold completionItem
  rw [List.head?_cons, decide_eq_true rfl]
  have e : (a ++ 34 :: w).reverse = w.reverse ++ 34 :: a.reverse := by simp
  rw [e, itemLen_shut (fun c hc => (hw c hc).2) ha]
  have : (a ++ 34 :: w).drop ((a ++ 34 :: w).length - (w.length + 1)) = 34 :: w := by
    rw [List.length_append, List.length_cons, Nat.add_sub_cancel, List.drop_left]
  simp only [this]
  exact lnStr_id (fun c hc => (hw c hc).1)

/-! ### The Tab key -/

/-- Tab behind a word: with `c` the longest text common to the files that begin with the word,
the line grows by what is missing to `c`, at the cursor, which stays behind it.  It does not change
when there is no such file or no room.  Missing: `C77_cut`, `C77_overlap`. -/
theorem C77_tab_partial (u : CharTables) (full : List Nat → List Nat)
    (find : List Nat → List (List Nat)) {l : LnState} {cs bs w a : List Nat}
    (hbuf : l.buf = uniText (cs ++ bs)) (hpos : l.pos = (uniText cs).length) (hc : 0 < l.cols)
    (hmax : l.buf.length ≤ lineRoom) (hl : uniText cs = a ++ w) (ha : BeforeWord a) (hw : BareWord w)
    (hq : (uniText bs).head? ≠ some 34)
    (hg : ∀ c ∈ cs ++ bs, Scalar c) (hst : Starts u.comb (cs ++ bs))
    (hf : ∀ f ∈ find (full w ++ [42]), full w <+: f)
    (hu : ∀ s, LongestCommon (find (full w ++ [42])) (full w ++ s) →
      ∃ ds, s = uniText ds ∧ (∀ c ∈ ds, Scalar c) ∧ Starts u.comb (cs ++ ds ++ bs) ∧
        (uniText bs).length ≤ s.length) :
    ∃ l', lnTab u full find l = .ok l' ∧ l'.hist = l.hist ∧ l'.idx = l.idx ∧
      ((find (full w ++ [42]) = [] ∧ l'.buf = l.buf ∧ l'.pos = l.pos) ∨
        ∃ s, LongestCommon (find (full w ++ [42])) (full w ++ s) ∧
          ((l.buf.length + s.length ≤ lineRoom ∧ l'.buf = uniText cs ++ s ++ uniText bs ∧
              l'.pos = l.pos + s.length) ∨
            (lineRoom < l.buf.length + s.length ∧ l'.buf = l.buf ∧ l'.pos = l.pos))) := by
  have htake : l.buf.take l.pos = uniText cs := by
    rw [hbuf, hpos, uniText_append, List.take_left]
  have hdrop : l.buf.drop l.pos = uniText bs := by
    rw [hbuf, hpos, uniText_append, List.drop_left]
  have hitem : completionItem (l.buf.take l.pos) (l.buf.drop l.pos) = w := by
    rw [htake, hdrop, hl]; exact C77_word_partial ha hw _ hq
  have hlen : l.buf.length = (uniText cs).length + (uniText bs).length := by
    rw [hbuf, uniText_append, List.length_append]
  have hsame : ∀ l0 : LnState, l0.buf = l.buf → l0.cols = l.cols → ∃ l', refresh u l0 = .ok l' ∧
      l'.buf = l.buf ∧ l'.pos = l0.pos ∧ l'.hist = l0.hist ∧ l'.idx = l0.idx ∧
      l'.cols = l.cols := by
    intro l0 h1 h2
    obtain ⟨l', e1, e2, e3, e4, e5, e6, -⟩ := refresh_ok u l0 (cs ++ bs) (by rw [h1, hbuf]) hg hst
      (by rw [h2]; exact hc)
    exact ⟨l', e1, by rw [e2, h1], e3, e4, e5, by rw [e6, h2]⟩
  unfold lnTab
  rw [hitem]
  rcases C77_answer_partial full find w hf with ⟨h1, h2⟩ | ⟨c, s, h1, rfl, h2⟩
  · rw [h2]
    obtain ⟨l', e1, e2, e3, e4, e5, -⟩ := hsame l rfl rfl
    exact ⟨l', by simp only [Res.ok_bind, lnComplete]; exact e1, e4, e5, .inl ⟨h1, e2, e3⟩⟩
  · obtain ⟨ds, hs, hd1, hd2, hd3⟩ := hu s h1
    rcases h2 with ⟨h2, -⟩ | ⟨h2, hnil, -⟩
    · rw [h2]
      simp only [Res.ok_bind, lnComplete]
      by_cases hroom : lnRoom - l.buf.length < s.length
      · rw [if_pos hroom]
        obtain ⟨l', e1, e2, e3, e4, e5, -⟩ := hsame l rfl rfl
        refine ⟨l', e1, e4, e5, .inr ⟨s, h1, .inr ⟨?_, e2, e3⟩⟩⟩
        unfold lnRoom at hroom; unfold lineRoom; omega
      · rw [if_neg hroom, if_neg (by rw [hlen, hpos]; omega)]
        obtain ⟨l', e1, e2, e3, e4, e5, -, -⟩ := refresh_ok u
          { l with buf := l.buf.take l.pos ++ s ++ l.buf.drop l.pos, pos := l.pos + s.length }
          (cs ++ ds ++ bs) (by dsimp only; rw [htake, hdrop, hs, uniText_append, uniText_append])
          (by
            intro c hcc
            simp only [List.mem_append] at hcc
            rcases hcc with (h | h) | h
            · exact hg c (by simp [h])
            · exact hd1 c h
            · exact hg c (by simp [h])) hd2 hc
        refine ⟨l', e1, e4, e5, .inr ⟨s, h1, ?_⟩⟩
        have hfit : l.buf.length + s.length ≤ lineRoom := by
          unfold lnRoom at hroom; unfold lineRoom at hmax ⊢; omega
        exact .inl ⟨hfit, by rw [e2]; dsimp only; rw [htake, hdrop], e3⟩
    · rw [h2]
      simp only [Res.ok_bind, lnComplete]
      obtain ⟨l1, e1, e2, e3, e4, e5, e6⟩ := hsame { l with pos := l.buf.length } rfl rfl
      obtain ⟨l2, g1, g2, g3, g4, g5, -⟩ := hsame { l1 with pos := l.pos } e2 e6
      subst hnil
      refine ⟨l2, by rw [e1]; simp only [Res.ok_bind]; exact g1, by rw [g4]; exact e4,
        by rw [g5]; exact e5, .inr ⟨[], h1, ?_⟩⟩
      refine .inl ⟨hmax, ?_, by rw [g3]; simp⟩
      rw [g2, hbuf, uniText_append]; simp

/-! ### The list of files -/

theorem lastPart_spec (f : List Nat) : LastPart f (lastPart f f) := by
  have : ∀ (r d name : List Nat), f = d ++ r → (∀ c ∈ r, True) →
      (∃ m, name = m ++ r ∧ (∀ c ∈ m, c ≠ 47 ∧ c ≠ 92)) →
      (f = name ∨ ∃ d c, f = d ++ c :: name ∧ (c = 47 ∨ c = 92)) → LastPart f (lastPart name r) := by
    intro r
    induction r with
    | nil =>
      intro d name _ _ ⟨m, h1, h2⟩ h3
      simp at h1; subst h1
      exact ⟨h2, h3⟩
    | cons c r ih =>
      intro d name hd _ ⟨m, h1, h2⟩ h3
      rw [lastPart]
      split
      · rename_i hc
        exact ih (d ++ [c]) r (by simp [hd]) (by simp) ⟨[], by simp, by simp⟩
          (.inr ⟨d, c, hd, hc⟩)
      · rename_i hc
        refine ih (d ++ [c]) name (by simp [hd]) (by simp) ⟨m ++ [c], by simp [h1], ?_⟩ h3
        intro x hx
        simp only [List.mem_append, List.mem_singleton] at hx
        rcases hx with hx | hx
        · exact h2 x hx
        · subst hx; omega
  exact this f [] f rfl (by simp) ⟨[], rfl, by simp⟩ (.inl rfl)

theorem longestName_spec (files : List (List Nat)) :
    (∀ f ∈ files, (lastPart f f).length ≤ longestName files) ∧
      (longestName files = 0 ∨ ∃ f ∈ files, (lastPart f f).length = longestName files) := by
  have : ∀ (fs : List (List Nat)) (m : Nat),
      let v := fs.foldl (fun max f =>
        if (lastPart f f).length > max then (lastPart f f).length else max) m
      m ≤ v ∧ (∀ f ∈ fs, (lastPart f f).length ≤ v) ∧
        (v = m ∨ ∃ f ∈ fs, (lastPart f f).length = v) := by
    intro fs
    induction fs with
    | nil => intro m; simp
    | cons f fs ih =>
      intro m
      simp only [List.foldl_cons]
      obtain ⟨h1, h2, h3⟩ := ih (if (lastPart f f).length > m then (lastPart f f).length else m)
      have hge : m ≤ (if (lastPart f f).length > m then (lastPart f f).length else m) ∧
          (lastPart f f).length ≤ (if (lastPart f f).length > m then (lastPart f f).length else m) := by
        split <;> omega
      refine ⟨by omega, ?_, ?_⟩
      · intro g hg
        rcases List.mem_cons.1 hg with rfl | hg
        · omega
        · exact h2 g hg
      · rcases h3 with h3 | ⟨g, hg, e⟩
        · rw [h3]
          split
          · exact .inr ⟨f, by simp, rfl⟩
          · exact .inl rfl
        · exact .inr ⟨g, by simp [hg], e⟩
  have := this files 0
  exact ⟨this.2.1, this.2.2⟩

theorem rows_nil {α} (k : Nat) : rows k ([] : List α) = [] := by
  rw [rows]; simp

/-- the names that come behind `count` others -/
theorem printNames_rows {cols max k : Nat} (hk : cols / (max + 1) = k) (h0 : 0 < k) :
    ∀ (n : Nat) (files : List (List Nat)), files.length = n → ∀ count, count % k = 0 →
    printNames cols max count files =
      .ok ((rows k files).map fun r => row (max + 1) (r.map fun f => lastPart f f)).flatten := by
  have hstep : ∀ (files : List (List Nat)) (j count : Nat), count % k = 0 → j + files.length < k →
      0 < j + files.length → printNames cols max (count + j) files =
        .ok ((files.map fun f => padTo (max + 1) (lastPart f f)).flatten ++ [13, 10]) := by
    intro files
    induction files with
    | nil =>
      intro j count hc hj hp
      rw [printNames, if_neg (by omega), hk]
      simp only [List.length_nil, Nat.add_zero] at hj hp
      rw [if_pos]
      · rfl
      · rw [Nat.add_mod, hc, Nat.zero_add, Nat.mod_mod, Nat.mod_eq_of_lt hj]; omega
    | cons f fs ih =>
      intro j count hc hj hp
      rw [printNames, if_neg (by omega), hk]
      simp only [List.length_cons] at hj
      rw [Nat.add_assoc, ih (j + 1) count hc (by omega) (by omega)]
      simp only [Res.ok_bind]
      rw [if_neg]
      · simp
      · rw [Nat.add_mod, hc, Nat.zero_add, Nat.mod_mod, Nat.mod_eq_of_lt (by omega)]; omega
  have hfull : ∀ (a b : List (List Nat)) (j count : Nat), count % k = 0 → j + a.length = k →
      a ≠ [] → ∀ out, printNames cols max (count + k) b = .ok out →
      printNames cols max (count + j) (a ++ b) =
        .ok ((a.map fun f => padTo (max + 1) (lastPart f f)).flatten ++ [13, 10] ++ out) := by
    intro a
    induction a with
    | nil => intro b j count _ _ h; exact absurd rfl h
    | cons f a ih =>
      intro b j count hc hj _ out hout
      rw [List.cons_append, printNames, if_neg (by omega), hk]
      simp only [List.length_cons] at hj
      cases a with
      | nil =>
        simp only [List.length_nil, Nat.zero_add] at hj
        rw [Nat.add_assoc, hj, List.nil_append, hout]
        simp only [Res.ok_bind]
        rw [if_pos (by rw [Nat.add_mod_right]; exact hc)]
        simp
      | cons g a =>
        rw [Nat.add_assoc, ih b (j + 1) count hc (by simp only [List.length_cons] at hj ⊢; omega)
          (by simp) out hout]
        simp only [Res.ok_bind]
        simp only [List.length_cons] at hj
        rw [if_neg]
        · simp
        · rw [Nat.add_mod, hc, Nat.zero_add, Nat.mod_mod, Nat.mod_eq_of_lt (by omega)]; omega
  intro n
  induction n using Nat.strongRecOn with
  | ind n ih =>
    intro files hn count hc
    by_cases hnil : files = []
    · subst hnil
      rw [printNames, if_neg (by omega), hk, rows_nil]
      simp [hc]
    have hpos := List.length_pos_iff.2 hnil
    by_cases hlt : files.length < k
    · have := hstep files 0 count hc (by omega) (by omega)
      rw [Nat.add_zero] at this
      rw [this, rows, dif_neg (by simp [hnil]; omega), List.take_of_length_le (by omega),
        List.drop_of_length_le (by omega), rows_nil]
      simp [row, padTo, Function.comp_def]
    · have hrec := ih (files.length - k) (by omega) (files.drop k) (by simp) (count + k)
        (by rw [Nat.add_mod_right]; exact hc)
      have := hfull (files.take k) (files.drop k) 0 count hc (by simp; omega)
        (by intro e; have := congrArg List.length e; rw [List.length_take, List.length_nil] at this; omega) _ hrec
      rw [Nat.add_zero, List.take_append_drop] at this
      rw [this]
      conv => rhs; rw [rows, dif_neg (by simp [hnil]; omega)]
      simp [row, padTo, Function.comp_def]

/-- The list shows the name of every file once, without its directories, in order, in rows of
cells one wider than the longest name, as many as fit in 80 columns.  Missing: `C77_eighty`. -/
theorem C77_list_partial (yes : Bool) (files : List (List Nat)) (names : List (List Nat))
    (hn : names = files.map fun f => lastPart f f) (hy : files.length ≤ 20 ∨ yes = true)
    (w : Nat) (hw : ∀ s ∈ names, s.length ≤ w) (hm : w = 0 ∨ ∃ s ∈ names, s.length = w)
    (h80 : w < 80) :
    printList yes files = .ok ([13, 10] ++ (if files.length > 20 then [13] else []) ++
      ((rows (80 / (w + 1)) names).map (row (w + 1))).flatten ++ [13, 10]) := by
  obtain ⟨h1, h2⟩ := longestName_spec files
  have hlong : longestName files = w := by
    apply Nat.le_antisymm
    · rcases h2 with h2 | ⟨f, hf, e⟩
      · omega
      · rw [← e]; exact hw _ (by rw [hn]; exact List.mem_map.2 ⟨f, hf, rfl⟩)
    · rcases hm with hm | ⟨s, hs, e⟩
      · omega
      · rw [hn] at hs
        obtain ⟨f, hf, rfl⟩ := List.mem_map.1 hs
        rw [← e]; exact h1 f hf
  have hmap : ∀ (k : Nat) (n : Nat) (l : List (List Nat)), l.length = n → rows k (l.map fun f => lastPart f f) =
      (rows k l).map fun r => r.map fun f => lastPart f f := by
    intro k n
    induction n using Nat.strongRecOn with
    | ind n ih =>
      intro l hl
      by_cases h : l = [] ∨ k = 0
      · rw [rows, dif_pos (by simpa using h), rows, dif_pos h]; rfl
      · rw [rows, dif_neg (by simpa using h)]
        conv => rhs; rw [rows, dif_neg h]
        have : 0 < l.length := List.length_pos_iff.2 (fun e => h (.inl e))
        have hk : k ≠ 0 := fun e => h (.inr e)
        rw [List.map_cons, ← List.map_take, ← List.map_drop,
          ih (l.drop k).length (by simp; omega) (l.drop k) rfl]
  unfold printList
  simp only [hlong]
  rw [if_neg (by rintro ⟨h, h'⟩; rcases hy with hy | hy <;> simp_all; omega),
    if_neg (by omega)]
  have hk : 0 < 80 / (w + 1) := Nat.div_pos (by omega) (by omega)
  rw [printNames_rows rfl hk _ files rfl 0 (by simp)]
  simp only [Res.ok_bind]
  rw [hn, hmap _ _ files rfl, List.map_map]
  rfl

/-- The last part of a name is the part behind the last separator. -/
theorem C77_last_part (f : List Nat) : LastPart f (lastPart f f) := lastPart_spec f

/-! ### Violations -/

/-- A file whose name has exactly 80 bytes makes the list of files divide by zero. -/
theorem C77_eighty (yes : Bool) {files : List (List Nat)} (hy : files.length ≤ 20 ∨ yes = true)
    (hl : longestName files = 80) : printList yes files = .ub := by
  unfold printList
  simp only [hl]
  rw [if_neg (by rintro ⟨h, h'⟩; rcases hy with hy | hy <;> simp_all; omega), if_neg (by omega)]
  cases files <;> rfl

/-- The search does not care about case, the completion keeps the letters typed: the name
completed is not the name of the file found. -/
theorem C77_case {full : List Nat → List Nat} {find : List Nat → List (List Nat)}
    {item f : List Nat} (h : find (full item ++ [42]) = [f]) (hne : ¬ full item <+: f)
    (hlen : (full item).length ≤ f.length) :
    ∃ s, handler full find item = .ok (.one s) ∧ full item ++ s ≠ f := by
  refine ⟨f.drop (full item).length, ?_, ?_⟩
  · simp [handler, h, longestMatch]; omega
  · intro e; exact hne ⟨_, e⟩

/-- A wildcard in the text makes completion read behind the end of a name. -/
theorem C77_wild {full : List Nat → List Nat} {find : List Nat → List (List Nat)}
    {item f : List Nat} (h : find (full item ++ [42]) = [f]) (hlen : f.length < (full item).length) :
    handler full find item = .ub := by
  simp [handler, h, longestMatch, hlen]

/-- Behind a quote not closed yet it is not the text behind the quote that is completed but the
whole line. -/
theorem C77_quote {a w : List Nat} (ha : ∀ c ∈ a, c ≠ 34 ∧ c ≠ 0)
    (hw : ∀ c ∈ w, c ≠ 34 ∧ c ≠ 0 ∧ c ∉ wordEnds) (hne : a ≠ []) :
    completionItem (a ++ 34 :: w) [] = a ++ 34 :: w := by
  have h1 : ∀ v : List Nat, (∀ c ∈ v, c ≠ 34) → itemLen true v = v.length := by
    intro v
    induction v with
    | nil => intro _; rfl
    | cons b r ih =>
      intro h
      rw [itemLen, if_neg (h b (by simp)), if_neg (by simp), ih (fun c hc => h c (by simp [hc]))]
      rfl
  have h2 : ∀ v : List Nat, (∀ c ∈ v, c ≠ 34 ∧ c ≠ 0 ∧ c ∉ wordEnds) →
      itemLen false (v ++ 34 :: a.reverse) = v.length + 1 + a.length := by
    intro v
    induction v with
    | nil =>
      intro _
      rw [List.nil_append, itemLen, if_pos rfl, Bool.not_false,
        h1 _ (by intro c hc; exact (ha c (by simpa using hc)).1)]
      simp; omega
    | cons b r ih =>
      intro h
      obtain ⟨h2, -, h3⟩ := h b (by simp)
      simp only [wordEnds, List.mem_cons, List.not_mem_nil, or_false, not_or] at h3
      rw [List.cons_append, itemLen, if_neg h2, if_neg (by omega), ih (fun c hc => h c (by simp [hc]))]
      simp; omega
  unfold completionItem
  have hq : decide (([] : List Nat).head? = some 34) = false := by simp
  have e : (a ++ 34 :: w).reverse = w.reverse ++ 34 :: a.reverse := by simp
  rw [hq, e, h2 _ (by intro c hc; exact hw c (by simpa using hc))]
  have : (a ++ 34 :: w).drop ((a ++ 34 :: w).length - (w.reverse.length + 1 + a.length)) =
      a ++ 34 :: w := by
    have : (a ++ 34 :: w).length - (w.reverse.length + 1 + a.length) = 0 := by simp; omega
    rw [this, List.drop_zero]
  simp only [this]
  have hz : ∀ c ∈ a ++ 34 :: w, c ≠ 0 := by
    intro c hc
    simp only [List.mem_append, List.mem_cons] at hc
    rcases hc with hc | hc | hc
    · exact (ha c hc).2
    · omega
    · exact (hw c hc).2.1
  split
  · rename_i r hr
    cases a with
    | nil => exact absurd rfl hne
    | cons x a =>
      simp at hr
      exact absurd hr.1 (ha x (by simp)).1
  · exact lnStr_id hz

/-- The name of a file with a blank is completed without quotes: the next Tab takes only the part
behind the blank. -/
theorem C77_blank {a w s b : List Nat} (hb : BareWord b) :
    completionItem (a ++ w ++ (s ++ 32 :: b)) [] = b := by
  have := C77_word_partial (a := a ++ w ++ s ++ [32]) (w := b) (.inr ⟨_, 32, rfl, by simp [wordEnds]⟩)
    hb [] (by simp)
  simpa using this

/-- When the names have only the first byte of a character in common, that byte alone is put in
the line, and the editor looks at a code that is not set. -/
theorem C77_cut (u : CharTables) {full : List Nat → List Nat} {find : List Nat → List (List Nat)}
    {l : LnState} (hb : l.buf = []) (hp : l.pos = 0) {r q : List Nat}
    (h : find (full [] ++ [42]) = [full [] ++ 0xC3 :: 0xA9 :: r, full [] ++ 0xC3 :: 0xA8 :: q]) :
    lnTab u full find l = .ub := by
  have hm : longestMatch (full [] ++ 0xC3 :: 0xA9 :: r) (full []).length none
      [full [] ++ 0xC3 :: 0xA8 :: q] = some ((full []).length + 1) := by
    have : ∀ a : List Nat, commonMatch (a ++ 0xC3 :: 0xA9 :: r) (a ++ 0xC3 :: 0xA8 :: q) =
        a.length + 1 := by
      intro a
      induction a with
      | nil => simp [commonMatch]
      | cons x a ih => simp [commonMatch, ih]
    simp [longestMatch, shorter, this]
  have hh : handler full find [] = .ok (.one [0xC3]) := by
    simp only [handler, h, hm]
    rw [if_pos (by omega)]
    have : (full [] ++ 0xC3 :: 0xA9 :: r).take ((full []).length + 1) = full [] ++ [0xC3] := by
      rw [List.take_append, List.take_of_length_le (by omega)]
      simp
    rw [this, List.drop_left]
  have hitem : completionItem (l.buf.take l.pos) (l.buf.drop l.pos) = [] := by
    simp [hb, hp, completionItem, itemLen, lnStr]
  unfold lnTab
  rw [hitem, hh]
  simp [lnComplete, hb, hp, lnRoom, refresh, columns, nextGlyph, utf8Code]

/-- Tab in the middle of a line copies the text behind the cursor over itself with `memcpy`, when
it is longer than what is added. -/
theorem C77_overlap (u : CharTables) {full : List Nat → List Nat}
    {find : List Nat → List (List Nat)} {l : LnState} {a w b s : List Nat}
    (ha : BeforeWord a) (hw : BareWord w) (hb : b.head? ≠ some 34)
    (hbuf : l.buf = a ++ w ++ b) (hpos : l.pos = (a ++ w).length)
    (hf : find (full w ++ [42]) = [full w ++ s]) (hroom : l.buf.length + s.length ≤ lineRoom)
    (hlt : s.length < b.length) : lnTab u full find l = .ub := by
  have hitem : completionItem (l.buf.take l.pos) (l.buf.drop l.pos) = w := by
    rw [hbuf, hpos, List.take_left, List.drop_left]
    exact C77_word_partial ha hw b hb
  have hlen : l.buf.length - l.pos = b.length := by rw [hbuf, hpos]; simp; omega
  unfold lnTab
  rw [hitem]
  simp only [handler, hf, longestMatch, List.length_append, List.drop_left]
  rw [if_neg (by omega)]
  simp only [Res.ok_bind, lnComplete]
  rw [if_neg (by unfold lnRoom; unfold lineRoom at hroom; omega), if_pos (by omega)]

/-! ### Examples -/

/-- `t` completed to `/d/test.` -/
example : handler (fun w => [47, 100, 47] ++ w)
    (fun _ => [[47, 100, 47, 116, 101, 115, 116, 46, 97], [47, 100, 47, 116, 101, 115, 116, 46, 98]])
    [116] = .ok (.one [101, 115, 116, 46]) := by rfl

example : LongestCommon [[1, 2, 3], [1, 2, 4]] [1, 2] :=
  ⟨by intro f hf; simp at hf; rcases hf with rfl | rfl <;> simp, fun c' h => by
    have h1 := h [1, 2, 3] (by simp)
    have h2 := h [1, 2, 4] (by simp)
    match c', h1, h2 with
    | [], _, _ => simp
    | [a], h1, _ => simp at h1; subst h1; simp
    | [a, b], h1, _ => simp at h1; obtain ⟨rfl, rfl⟩ := h1; simp
    | a :: b :: c :: d, h1, h2 => simp at h1 h2; omega⟩

/-- Tab behind `x t` -/
example : ((lnTab ⟨fun _ => false, fun _ => false⟩ (fun w => [47] ++ w)
    (fun _ => [[47, 116, 101], [47, 116, 101, 115]])
    { lnStart [] 80 0 with buf := [120, 32, 116], pos := 3 }) >>= fun l => Res.ok (l.buf, l.pos)) =
    .ok ([120, 32, 116, 101], 4) := by decide +kernel

/-- the list of three files -/
example : printList true [[47, 97], [47, 98, 98], [47, 99]] =
    .ok [13, 10, 97, 32, 32, 98, 98, 32, 99, 32, 32, 13, 10, 13, 10] := by decide +kernel

/-- a name of 80 bytes -/
example : longestName [List.replicate 80 97, [98]] = 80 := by decide +kernel

/-- `r` typed where there is `README`: `rEADME` -/
example : handler (fun w => [47] ++ w) (fun _ => [[47, 82, 69, 65, 68, 77, 69]]) [114] =
    .ok (.one [69, 65, 68, 77, 69]) ∧ ¬ [47, 114] <+: [47, 82, 69, 65, 68, 77, 69] := by
  exact ⟨rfl, by decide⟩

end PBat
