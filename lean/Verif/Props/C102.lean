import Verif.Lemmas.CdWin
import Verif.Lemmas.Def
import Verif.Props.C50
/-
C102: the directories of the drives on Windows.
-/
namespace PBat.Win
open Spec Spec.Win

/-- The state shows the directories of the drives: the current directory is the one associated with the current drive,
and every variable `=x:` designates the directory associated with the drive `x`. -/
def Rel (s : DriveState) (a : Drives) : Prop :=
  (∃ d names, d.isAlpha = true ∧ (∀ c ∈ names, NameW c) ∧ s.cur = dirText d names ∧ a.cur = d.toLower ∧
    a.dirs a.cur = some names.reverse) ∧
  (∀ k v, s.drives k = some v → ∃ e r, v = e :: ':' :: r ∧ e.toLower = k) ∧
  ∀ k, a.dirs k = (s.drives k).map placeOf

/-- Which directories exist depends on the place, not on the way of writing it; no name contains `:`. -/
def World (dirExists : List Char → Bool) (there : Char → List (List Char) → Bool) : Prop :=
  (∀ e r, e.isAlpha = true → (∀ c, r.head? = some c → c = '/' ∨ c = '\\') →
    dirExists (e :: ':' :: r) = there e.toLower (walkDirs [] (comps r))) ∧
  ∀ k place, (∃ c ∈ place, ':' ∈ c) → there k place = false

theorem rel_not_absolute {p : List Char} (h1 : ∀ c, p.head? = some c → c ≠ '/' ∧ c ≠ '\\') (h2 : p[1]? ≠ some ':') :
    absolute p = false := by
  match p with
  | [] => rfl
  | [c] =>
    have := h1 c rfl
    simp [absolute, unc, rootPath, drivePath, sep, this]
  | c :: d :: t =>
    have hc := h1 c rfl
    have hd : d ≠ ':' := by intro e; exact h2 (by rw [e]; rfl)
    have e1 : unc (c :: d :: t) = false := by unfold unc; split <;> simp_all
    have e2 : drivePath (c :: d :: t) = false := by unfold drivePath; split <;> simp_all
    simp [absolute, e1, e2, rootPath, sep, hc]

theorem drive_absolute {d : Char} {r : List Char} (h : ∃ c, r.head? = some c ∧ (c = '/' ∨ c = '\\')) :
    absolute (d :: ':' :: r) = true := by
  obtain ⟨c, hc, hs⟩ := h
  cases r with
  | nil => simp at hc
  | cons x r =>
    simp at hc; subst hc
    have : sep x = true := by simpa [sep] using hs
    simp [absolute, drivePath, this]

theorem unc_dir {d : Char} (hd : d ≠ '\\') (t : List Char) : unc (d :: t) = false := by
  unfold unc; split <;> simp_all

theorem rel_move {cap : Nat} {dirExists : List Char → Bool} {there : Char → List (List Char) → Bool} (hw : World dirExists there)
    {d : Char} (hd : d.isAlpha = true) {names : List (List Char)} (hn : ∀ c ∈ names, NameW c) {p : List Char}
    (h1 : ∀ c, p.head? = some c → c ≠ '/' ∧ c ≠ '\\') (h2 : p[1]? ≠ some ':') (hup : ¬ Climbs names.reverse (comps p))
    (hfit : (dirText d names).length + p.length + 1 < cap) :
    setCurrentDir cap dirExists (dirText d names) p =
      if there d.toLower (walkDirs names.reverse (comps p)) then some (dirText d (walkDirs names.reverse (comps p)).reverse)
      else none := by
  obtain ⟨-, -, a1, a2, -, -⟩ := alpha_case hd
  have htake : (dirText d names ++ '\\' :: p).take (cap - 1) = dirText d names ++ '\\' :: p :=
    List.take_of_length_le (by simp; omega)
  have hex : dirExists (dirText d names ++ '\\' :: p) = there d.toLower (walkDirs names.reverse (comps p)) := by
    have := hw.1 d (names.flatMap ('\\' :: ·) ++ '\\' :: p) hd (by
      intro c hc
      cases names with
      | nil => simp at hc; exact .inr hc.symm
      | cons a l => simp at hc; exact .inr hc.symm)
    rw [comps_join _ (by decide), walk_append, walk_flat hn] at this
    exact this
  unfold setCurrentDir
  rw [rel_not_absolute h1 h2, Bool.false_and, if_neg (by simp), if_pos (by omega)]
  simp only [htake, hex]
  split
  · rw [canonicalize_drive ⟨a1, a2⟩ names hn (by decide), if_neg hup]
  · rfl

theorem abs_move {cap : Nat} {dirExists : List Char → Bool} {there : Char → List (List Char) → Bool} (hw : World dirExists there)
    {d : Char} (hd : d.isAlpha = true) {names : List (List Char)} (hn : ∀ c ∈ names, NameW c) {e : Char} (he : e.isAlpha = true)
    {r : List Char} (hr : ∃ c, r.head? = some c ∧ (c = '/' ∨ c = '\\')) (hup : ¬ Climbs [] (comps r))
    (hfit : (dirText d names).length + (r.length + 2) + 1 < cap) :
    setCurrentDir cap dirExists (dirText d names) (e :: ':' :: r) =
      if there e.toLower (walkDirs [] (comps r)) then some (dirText e (walkDirs [] (comps r)).reverse) else none := by
  obtain ⟨-, -, a1, a2, -, -⟩ := alpha_case hd
  obtain ⟨-, -, b1, b2, -, -⟩ := alpha_case he
  obtain ⟨c, hc, hs⟩ := hr
  have hex : dirExists (e :: ':' :: r) = there e.toLower (walkDirs [] (comps r)) :=
    hw.1 e r he fun x hx => by rw [hc] at hx; cases hx; exact hs
  obtain ⟨q, rfl⟩ : ∃ q, r = c :: q := by cases r with | nil => simp at hc | cons x q => simp at hc; exact ⟨q, by rw [hc]⟩
  have hsep : sep c = true := by simpa [sep] using hs
  have hcomps : comps (c :: q) = [] :: comps q := by
    have := comps_join [] hsep q
    rw [List.nil_append] at this
    rw [this]; rfl
  have hwalk : ∀ st, walkDirs st (comps (c :: q)) = walkDirs st (comps q) := by
    intro st; rw [hcomps, walk_skip (.inl rfl)]
  have hclimb : ∀ st, Climbs st (comps (c :: q)) ↔ Climbs st (comps q) := by
    intro st; rw [hcomps, climbs_skip (.inl rfl)]
  rw [hclimb] at hup
  unfold setCurrentDir
  rw [drive_absolute ⟨c, rfl, hs⟩, Bool.true_and, hex]
  by_cases ht : there e.toLower (walkDirs [] (comps (c :: q))) = true
  · rw [if_pos ht, if_pos ht, if_neg (by simp [b1]), List.take_of_length_le (by simp at *; omega)]
    have := canonicalize_drive ⟨b1, b2⟩ [] (by simp) hsep q
    rw [show dirText e [] ++ c :: q = e :: ':' :: c :: q from rfl] at this
    rw [this, hwalk]
    rw [if_neg (by simpa using hup)]
    rfl
  · rw [if_neg ht, if_neg ht, if_pos (by simp at hfit; omega)]
    have htake : (dirText d names ++ '\\' :: e :: ':' :: c :: q).take (cap - 1) = dirText d names ++ '\\' :: e :: ':' :: c :: q :=
      List.take_of_length_le (by simp at *; omega)
    simp only [htake]
    have hno : dirExists (dirText d names ++ '\\' :: e :: ':' :: c :: q) = false := by
      have h := hw.1 d (names.flatMap ('\\' :: ·) ++ '\\' :: e :: ':' :: c :: q) hd (by
        intro c hc
        cases names with
        | nil => simp at hc; exact .inr hc.symm
        | cons a l => simp at hc; exact .inr hc.symm)
      rw [comps_join _ (by decide), walk_append, walk_flat hn] at h
      have h2 := comps_join [e, ':'] hsep q
      rw [List.cons_append, List.cons_append, List.nil_append] at h2
      have h3 : comps [e, ':'] = [[e, ':']] := by
        have : comps [e, ':'] = parts (sl [e, ':']) := rfl
        rw [this, show sl [e, ':'] = [e, ':'] by simp [sl, b2], parts_word (by simp [b1.symm])]
      rw [h2, h3, List.singleton_append] at h
      have h4 : walkDirs names.reverse ([e, ':'] :: comps q) = walkDirs ([e, ':'] :: names.reverse) (comps q) := by
        conv => lhs; unfold walkDirs
        rw [if_neg (by simp), if_neg (by simp)]
      have h5 := walk_base (comps q) [] ([e, ':'] :: names.reverse) hup
      rw [List.nil_append] at h5
      rw [h4, h5] at h
      refine Eq.trans ?_ (hw.2 d.toLower (walkDirs [] (comps q) ++ [e, ':'] :: names.reverse) ⟨[e, ':'], by simp, by simp⟩)
      exact h
    rw [hno]; rfl

/-- A command of the two documented kinds, on a state that shows the directories of the drives, has the documented effect: a
relative path changes the current directory, which is the one associated with the current drive; a path with a drive
replaces the directory associated with that drive, and becomes the current directory if the drive is the current one or
with `/d`; nothing changes if the directory to go to does not exist.  Missing: paths that go above the root, and those
written in other ways (`C102_root`, `C102_enable`, `C102_quoted`, `C102_unchecked`). -/
theorem C102_step_partial (cap : Nat) (dirExists : List Char → Bool) (there : Char → List (List Char) → Bool)
    (hw : World dirExists there) (ex : List Char → Res (List Char)) (s : DriveState) (a : Drives) (hrel : Rel s a)
    (line : List Char) (q : Ask) (quotes : Bool) (hread : cdRead ex line = .ok (.go (askForce q) quotes (askText q)))
    (hp : Plain a q) (hfit : s.cur.length + (askText q).length + 1 < cap) :
    ∃ s' out, cmdCd cap dirExists ex s line = .ok (s', out) ∧ Rel s' (ask there a q) ∧ (out = .done ∨ out = .failed ∧ s' = s) ∧
      s'.cur.length ≤ s.cur.length + (askText q).length + 1 := by
  obtain ⟨⟨d, names, hd, hn, hcur, hac, had⟩, hform, hdirs⟩ := hrel
  have hhead : s.cur.headD '\x00' = d := by rw [hcur]; rfl
  cases q with
  | rel p =>
    obtain ⟨h1, h2, h3⟩ := hp
    rw [had, Option.getD_some] at h3
    simp only [askText, askForce] at *
    have hmove := rel_move (cap := cap) hw hd hn h1 h2 h3 (by rw [← hcur]; omega)
    have hcmd : cmdCd cap dirExists ex s line = cdGo cap dirExists s false none none p := by
      unfold cmdCd
      rw [hread]
      match p, h2 with
      | [], _ => rfl
      | [_], _ => rfl
      | x :: y :: r, h2 =>
        have : y ≠ ':' := by intro e; exact h2 (by rw [e]; rfl)
        simp only
        split
        · rename_i h; injection h with _ h; injection h with h _; exact absurd h this
        · rfl
    rw [hcmd]
    unfold cdGo
    simp only [if_true]
    rw [← hcur] at hmove
    rw [hmove]
    simp only [ask, had, Option.getD_some]
    rw [hac]
    by_cases ht : there d.toLower (walkDirs names.reverse (comps p)) = true
    · rw [if_pos ht, if_pos ht]
      rw [if_pos ht] at hmove
      refine ⟨_, _, rfl, ?_, .inl rfl, setCurrentDir_length hmove⟩
      have hnn : ∀ c ∈ (walkDirs names.reverse (comps p)).reverse, NameW c := fun c hc =>
        walk_namesW (comps p) (comps_clean p) names.reverse (fun c hc => hn c (by simpa using hc)) c (by simpa using hc)
      rw [hhead]
      refine ⟨⟨d, _, hd, hnn, rfl, rfl, by simp [assoc]⟩, ?_, ?_⟩
      · intro k v hv
        simp only [setDrive] at hv
        split at hv
        · rename_i hk
          rw [if_neg (by simp [dirText])] at hv
          cases hv
          exact ⟨d, _, rfl, hk.symm⟩
        · exact hform k v hv
      · intro k
        simp only [assoc, setDrive]
        split
        · rw [if_neg (by simp [dirText]), Option.map_some, place_dirText d hnn, List.reverse_reverse]
        · exact hdirs k
    · rw [if_neg ht, if_neg ht]
      exact ⟨_, _, rfl, ⟨⟨d, names, hd, hn, hcur, hac, had⟩, hform, hdirs⟩, .inr ⟨rfl, rfl⟩, by omega⟩
  | abs force e r =>
    obtain ⟨he, hr, h3⟩ := hp
    simp only [askText, askForce] at *
    have hmove := abs_move (cap := cap) hw hd hn he hr h3 (by rw [← hcur]; simp at hfit; omega)
    have hcmd : cmdCd cap dirExists ex s line = cdGo cap dirExists s force (some e) none (e :: ':' :: r) := by
      unfold cmdCd
      rw [hread]
      obtain ⟨c, hc, hs⟩ := hr
      cases r with
      | nil => simp at hc
      | cons x r =>
        simp at hc; subst hc
        have : skipBlanks (x :: r) ≠ [] := by
          rcases hs with rfl | rfl <;> simp [skipBlanks, isDelim]
        simp only
        rw [if_neg this]
    rw [hcmd]
    have hrec : ∀ (cur : List Char) (a' : Drives), (∃ d names, d.isAlpha = true ∧ (∀ c ∈ names, NameW c) ∧ cur = dirText d names ∧ a'.cur = d.toLower ∧
        a'.dirs a'.cur = some names.reverse) → a'.dirs = assoc a.dirs e.toLower (walkDirs [] (comps r)) →
        Rel ⟨cur, setDrive s.drives e (e :: ':' :: r)⟩ a' := by
      intro cur a' hc ha'
      refine ⟨hc, ?_, ?_⟩
      · intro k v hv
        simp only [setDrive] at hv
        split at hv
        · rename_i hk
          rw [if_neg (by simp)] at hv
          cases hv
          exact ⟨e, _, rfl, hk.symm⟩
        · exact hform k v hv
      · intro k
        rw [ha']
        simp only [assoc, setDrive]
        split
        · rw [if_neg (by simp)]; rfl
        · exact hdirs k
    have hnn : ∀ c ∈ (walkDirs [] (comps r)).reverse, NameW c := fun c hc =>
      walk_namesW (comps r) (comps_clean r) [] (by simp) c (by simpa using hc)
    unfold cdGo
    simp only [hhead, ask, hac]
    rw [← hcur] at hmove
    by_cases hm : e.toLower = d.toLower ∨ force = true
    · have hm' : (e.toUpper == d.toUpper || force) = true := by
        simpa [same_drive he hd] using hm
      rw [if_pos hm', if_pos hm, hmove]
      by_cases ht : there e.toLower (walkDirs [] (comps r)) = true
      · rw [if_pos ht, if_pos ht]
        rw [if_pos ht] at hmove
        refine ⟨_, _, rfl, hrec _ _ ⟨e, _, he, hnn, rfl, rfl, by simp [assoc]⟩ rfl, .inl rfl, setCurrentDir_length hmove⟩
      · rw [if_neg ht, if_neg ht]
        exact ⟨_, _, rfl, ⟨⟨d, names, hd, hn, hcur, hac, had⟩, hform, hdirs⟩, .inr ⟨rfl, rfl⟩, by omega⟩
    · have hm' : ¬ (e.toUpper == d.toUpper || force) = true := by
        simpa [same_drive he hd] using hm
      rw [if_neg hm', if_neg hm]
      refine ⟨_, _, rfl, hrec _ _ ⟨d, names, hd, hn, hcur, rfl, ?_⟩ rfl, .inl rfl, by simp; omega⟩
      simp only [assoc]
      rw [if_neg (fun h => hm (.inl h.symm)), ← hac, had]

/-! ### Reading the line -/

/-- The path as written on the line, in quotes or not, followed by blanks. -/
inductive Wrote : Bool → List Char → List Char → Prop
  | bare {p w} : (∀ c ∈ w, c = ' ' ∨ c = '\t') → (∀ c, p.head? = some c → ¬ Blank c ∧ c ≠ '"') →
      (∀ c, p.getLast? = some c → c ≠ ' ' ∧ c ≠ '\t') → Wrote false p (p ++ w)
  | quoted {p w} : (∀ c ∈ w, c = ' ' ∨ c = '\t') → (∀ c, p.getLast? = some c → c ≠ ' ' ∧ c ≠ '\t' ∧ c ≠ '"') →
      Wrote true p ('"' :: (p ++ '"' :: w))

theorem cdEnd_eq {q : Bool} {p w : List Char} (hp : p ≠ [])
    (hl : ∀ c, p.getLast? = some c → c ≠ ' ' ∧ c ≠ '\t' ∧ (q = true → c ≠ '"'))
    (hw : ∀ c ∈ w, c = ' ' ∨ c = '\t' ∨ (q = true ∧ c = '"')) : cdEnd q (p ++ w) = p := by
  have h := cdCut_eq hp hl hw
  unfold cdCut at h
  simp only at h
  split at h
  · rename_i hall
    have hlast := hl (p.getLast hp) (List.getLast?_eq_some_getLast hp)
    have := List.all_eq_true.1 hall (p.getLast hp) (List.mem_append_left _ (List.getLast_mem hp))
    simp [hlast] at this
    exact absurd this.2 (hlast.2.2 this.1)
  · exact h

theorem read_body {ex : List Char → Res (List Char)} {w p body : List Char} {quotes : Bool} (hw : ∀ c ∈ w, c = ' ' ∨ c = '\t')
    (hb : Wrote quotes p body) (hp : p ≠ []) (hex : ex body = .ok body) (force : Bool) :
    (match ex ((w ++ body).dropWhile fun c => c == ' ' || c == '\t') with
    | .ub => Res.ub
    | .hang => .hang
    | .ok text =>
      match skipBlanks text with
      | '"' :: r => .ok (CdLine.go force true (cdEnd true r))
      | r => .ok (.go force false (cdEnd false r))) = .ok (.go force quotes p) := by
  have hdrop : (w ++ body).dropWhile (fun c => c == ' ' || c == '\t') = body := by
    apply dropWhile_blanks hw
    intro c hc hbl
    cases hb with
    | bare h1 h2 h3 =>
      cases p with
      | nil => exact hp rfl
      | cons a p =>
        simp at hc; subst hc
        rcases hbl with rfl | rfl
        · exact (h2 _ rfl).1 (.inl rfl)
        · exact (h2 _ rfl).1 (.inr (.inl rfl))
    | quoted h1 h2 =>
      simp at hc; subst hc
      rcases hbl with h | h <;> exact absurd h (by decide)
  rw [hdrop, hex]
  simp only
  cases hb with
  | @bare p w' h1 h2 h3 =>
    cases p with
    | nil => exact absurd rfl hp
    | cons a p =>
      have h := h2 a rfl
      have he := cdEnd_eq (q := false) hp (fun c hc => ⟨(h3 c hc).1, (h3 c hc).2, by simp⟩) (w := w') (fun c hc => by
        rcases h1 c hc with h | h
        · exact .inl h
        · exact .inr (.inl h))
      rw [List.cons_append] at *
      rw [skipBlanks_stop h.1]
      split
      · rename_i e; injection e with e _; exact absurd e h.2
      · rw [he]
  | @quoted p w' h1 h2 =>
    rw [skipBlanks_stop (by decide)]
    simp only
    rw [cdEnd_eq (q := true) hp (fun c hc => ⟨(h2 c hc).1, (h2 c hc).2.1, fun _ => (h2 c hc).2.2⟩)]
    intro c hc
    rcases List.mem_cons.1 hc with rfl | hc
    · exact .inr (.inr ⟨rfl, rfl⟩)
    · rcases h1 c hc with h | h
      · exact .inl h
      · exact .inr (.inl h)

/-- The path on a line of `CD` without option is read as written, in quotes or not, without the blanks around it. -/
theorem C102_text (ex : List Char → Res (List Char)) (w p body : List Char) (quotes : Bool)
    (hw : ∀ c ∈ w, c = ' ' ∨ c = '\t') (hb : Wrote quotes p body) (hp : p ≠ []) (hs : p.head? ≠ some '/') (hc : '^' ∉ p)
    (hex : ∀ t, (∀ c ∈ t, c ∈ w ++ body) → ex t = .ok t) : cdRead ex (w ++ body) = .ok (.go false quotes p) := by
  have hblank : ∀ v : List Char, (∀ c ∈ v, c = ' ' ∨ c = '\t') → ∀ c ∈ v, Blank c := by
    intro v hv c hcv
    rcases hv c hcv with rfl | rfl
    · exact .inl rfl
    · exact .inr (.inl rfl)
  have hns : ∀ v : List Char, (∀ c ∈ v, c = ' ' ∨ c = '\t') → '^' ∉ v := by
    intro v hv h
    rcases hv _ h with h | h <;> exact absurd h (by decide)
  have hhead : ∃ c t, body = c :: t ∧ ¬ Blank c ∧ (c = '"' ∨ p.head? = some c ∧ c ≠ '"') := by
    cases hb with
    | bare h1 h2 h3 =>
      cases p with
      | nil => exact absurd rfl hp
      | cons a p => exact ⟨a, _, rfl, (h2 a rfl).1, .inr ⟨rfl, (h2 a rfl).2⟩⟩
    | quoted h1 h2 => exact ⟨'"', _, rfl, by decide, .inl rfl⟩
  have hnc : '^' ∉ w ++ body := by
    intro h
    rcases List.mem_append.1 h with h | h
    · exact hns w hw h
    · cases hb with
      | bare h1 h2 h3 =>
        rcases List.mem_append.1 h with h | h
        · exact hc h
        · exact hns _ h1 h
      | quoted h1 h2 =>
        rcases List.mem_cons.1 h with h | h
        · exact absurd h (by decide)
        · rcases List.mem_append.1 h with h | h
          · exact hc h
          · rcases List.mem_cons.1 h with h | h
            · exact absurd h (by decide)
            · exact hns _ h1 h
  obtain ⟨c0, t0, hbody, hb0, hc0⟩ := hhead
  obtain ⟨v, raw, rest, text, h1, h2, h3, h4, h5⟩ := first_param_ne ex _ hex hnc (by
    intro h; exact hb0 (h c0 (by rw [hbody]; simp)))
  have hsame : raw ++ rest = body := by
    have e1 := skipBlanks_append (s := body) (hblank w hw)
    have e2 := skipBlanks_append (s := raw ++ rest) h2
    rw [h1, e2] at e1
    obtain ⟨c, hc1, hc2⟩ := h3
    have e3 : skipBlanks (raw ++ rest) = raw ++ rest := by
      cases hh : raw ++ rest with
      | nil => rfl
      | cons d t => rw [hh] at hc1; simp at hc1; subst hc1; exact skipBlanks_stop hc2
    rw [e3, hbody, skipBlanks_stop hb0] at e1
    rw [e1, hbody]
  have hopt : stricmp text ['/', 'D'] ≠ 0 := by
    intro e
    have e := stricmp_zero.1 e
    cases text with
    | nil => simp [Spec.fold] at e
    | cons x text =>
      simp only [Spec.fold, List.map_cons, List.cons.injEq] at e
      have hx : x = '/' := toLower_slash (e.1.trans (by decide))
      subst hx
      rcases hc0 with rfl | ⟨hc1, hc2⟩
      · cases h4 with
        | bare hh =>
          rw [hbody, List.cons_append] at hsame; injection hsame with hsame _
          exact absurd hsame (by decide)
        | quoted =>
          cases hb with
          | bare a1 a2 a3 =>
            cases p with
            | nil => exact hp rfl
            | cons a p =>
              rw [List.cons_append] at hbody; injection hbody with hbody _
              exact (a2 a rfl).2 hbody
          | quoted a1 a2 =>
            cases p with
            | nil => exact hp rfl
            | cons a p => simp at hsame; exact hs (by rw [hsame.1]; rfl)
        | opened =>
          cases hb with
          | bare a1 a2 a3 =>
            cases p with
            | nil => exact hp rfl
            | cons a p =>
              rw [List.cons_append] at hbody; injection hbody with hbody _
              exact (a2 a rfl).2 hbody
          | quoted a1 a2 =>
            cases p with
            | nil => exact hp rfl
            | cons a p => simp at hsame; exact hs (by rw [hsame.1]; rfl)
      · cases h4 with
        | bare hh =>
          rw [hbody, List.cons_append] at hsame; injection hsame with hsame _
          rw [← hsame] at hc1
          exact hs hc1
        | quoted =>
          rw [hbody, List.cons_append] at hsame; injection hsame with hsame _
          exact hc2 hsame.symm
        | opened =>
          rw [hbody, List.cons_append] at hsame; injection hsame with hsame _
          exact hc2 hsame.symm
  unfold cdRead
  rw [h5]
  simp only
  rw [if_neg hopt, decide_eq_false hopt]
  exact read_body hw hb hp (hex _ fun c hc => List.mem_append_right _ hc) false

/-- With `/d` before it. -/
theorem C102_text_d (ex : List Char → Res (List Char)) (w f w2 p body : List Char) (quotes : Bool)
    (hw : ∀ c ∈ w, Blank c) (hf : f = "/d".toList ∨ f = "/D".toList) (hw2 : ∀ c ∈ w2, c = ' ' ∨ c = '\t') (hne : w2 ≠ [])
    (hb : Wrote quotes p body) (hp : p ≠ []) (hexf : ex f = .ok f) (hex : ex body = .ok body) :
    cdRead ex (w ++ (f ++ (w2 ++ body))) = .ok (.go true quotes p) := by
  have hstop : Stops (w2 ++ body) := by
    cases w2 with
    | nil => exact absurd rfl hne
    | cons b w2 =>
      refine .inr ⟨b, w2 ++ body, rfl, ?_⟩
      rcases hw2 b (by simp) with rfl | rfl
      · exact .inl rfl
      · exact .inr (.inl rfl)
  have hwr : Written (fun c => c == '"' || c == '^') f f := by
    rcases hf with rfl | rfl <;> exact .word (by decide) (by decide) (by decide) (by decide)
  have hn := nextParam_written (q := fun c => c == '"' || c == '^') rfl rfl ex hw hwr hstop
  have hesc : escape (fun c => c == '"' || c == '^') f = f := by
    rcases hf with rfl | rfl <;> decide
  rw [hesc, hexf] at hn
  have hopt : stricmp f ['/', 'D'] = 0 := by
    rcases hf with rfl | rfl <;> decide
  unfold cdRead
  rw [hn]
  simp only [Res.ok_bind]
  show (match (Res.ok (some (f, w2 ++ body)) : Res (Option (List Char × List Char))) with | _ => _) = _
  simp only
  rw [if_pos hopt, decide_eq_true hopt]
  exact read_body hw2 hb hp hex true

/-! ### Histories -/

/-- One command of a history, with the directories that exist at the time. -/
structure Item where
  dirExists : List Char → Bool
  there : Char → List (List Char) → Bool
  line : List Char
  asked : Ask

/-- Executing commands one after the other. -/
def runItems (cap : Nat) (ex : List Char → Res (List Char)) (s : DriveState) : List Item → Res DriveState
  | [] => .ok s
  | i :: is =>
    match cmdCd cap i.dirExists ex s i.line with
    | .ub => .ub
    | .hang => .hang
    | .ok (s, _) => runItems cap ex s is

/-- The commands are of the documented kinds. -/
def Documented (ex : List Char → Res (List Char)) : Drives → List Item → Prop
  | _, [] => True
  | a, i :: is => World i.dirExists i.there ∧ (∃ quotes, cdRead ex i.line = .ok (.go (askForce i.asked) quotes (askText i.asked))) ∧
      Plain a i.asked ∧ Documented ex (ask i.there a i.asked) is

/-- After any history of such commands, directories being made and removed in between, the current directory and the
variables `=x:` show the directories the manual associates with the drives. -/
theorem C102_history_partial (cap : Nat) (ex : List Char → Res (List Char)) (items : List Item) (s : DriveState) (a : Drives)
    (hrel : Rel s a) (hdoc : Documented ex a items)
    (hfit : s.cur.length + (items.map fun i => (askText i.asked).length + 1).sum < cap) :
    ∃ s', runItems cap ex s items = .ok s' ∧ Rel s' (items.foldl (fun a i => ask i.there a i.asked) a) := by
  induction items generalizing s a with
  | nil => exact ⟨s, rfl, hrel⟩
  | cons i is ih =>
    obtain ⟨hw, ⟨quotes, hread⟩, hp, hdoc⟩ := hdoc
    simp only [List.map_cons, List.sum_cons] at hfit
    obtain ⟨s', out, h1, h2, -, h4⟩ := C102_step_partial cap i.dirExists i.there hw ex s a hrel i.line i.asked quotes hread hp (by omega)
    obtain ⟨s'', h5, h6⟩ := ih s' _ h2 hdoc (by omega)
    refine ⟨s'', ?_, h6⟩
    rw [runItems, h1]
    exact h5

/-- A drive nobody has been on is entered at its root by `CD x:`. -/
theorem C102_fresh (cap : Nat) (dirExists : List Char → Bool) (ex : List Char → Res (List Char)) (s : DriveState) (line : List Char)
    (x : Char) (force : Bool) (hx : x.isAlpha = true) (hread : cdRead ex line = .ok (.go force false [x, ':']))
    (hnone : s.drives x.toLower = none) (hcap : 3 ≤ cap) :
    cmdCd cap dirExists ex s line = if dirExists [x, ':'] then .ok (⟨[x, ':'], setDrive s.drives x [x, ':']⟩, .done)
      else cdGo cap dirExists s true (some x) none [x, ':'] := by
  obtain ⟨-, -, a1, a2, -, hs⟩ := alpha_case hx
  split
  · rename_i he
    unfold cmdCd
    rw [hread]
    simp only [skipBlanks, if_true, hnone, Bool.false_eq_true, if_false]
    unfold cdGo
    simp only [List.head?_cons, Bool.or_true, if_true]
    have hset : setCurrentDir cap dirExists s.cur [x, ':'] = some [x, ':'] := by
      unfold setCurrentDir
      have : absolute [x, ':'] = true := by simp [absolute, drivePath]
      rw [this, he, Bool.true_and, if_pos rfl, if_neg (by simp [a1]), List.take_of_length_le (by simp; omega)]
      have hu : unc [x, ':'] = false := unc_dir a2 _
      unfold canonicalize
      rw [hu, if_neg (by simp), canonLoop.eq_def]
      simp only [hs, Bool.false_eq_true, if_false]
      rw [canonLoop.eq_def]
      simp only [show sep ':' = false by decide, Bool.false_eq_true, if_false]
      rw [canonLoop.eq_def]
      rfl
    rw [hset]
    simp
  · unfold cmdCd
    rw [hread]
    simp [skipBlanks, hnone]

/-- Without a path, `CD` shows the current directory and changes nothing. -/
theorem C102_show (cap : Nat) (dirExists : List Char → Bool) (ex : List Char → Res (List Char)) (s : DriveState) (line : List Char)
    (h : ∀ c ∈ line, Blank c) : cmdCd cap dirExists ex s line = .ok (s, .shown (s.cur ++ ['\n'])) := by
  have hn : nextParam stdDelims ex line = .ok none := by
    apply nextParam_nil
    have := skipBlanks_append (s := []) h
    rw [List.append_nil] at this
    rw [this]; rfl
  unfold cmdCd cdRead
  rw [hn]

/-- `X:` is an abbreviation of `CD X:`. -/
theorem C102_abbreviation (ex : List Char → Res (List Char)) (x : Char) (w : List Char) (hx : x.isAlpha = true)
    (hw : ∀ c ∈ w, Blank c) (hex : ∀ t, (∀ c ∈ t, c = ' ' ∨ c = x ∨ c = ':') → ex t = .ok t) :
    ∃ rest, abbreviated (x :: ':' :: w) = "CD".toList ++ rest ∧ cdRead ex rest = .ok (.go false false [x, ':']) := by
  have hsk : skipAllBlanks w = [] := by
    induction w with
    | nil => rfl
    | cons c w ih =>
      have hc := hw c (by simp)
      have : isDelim c = true := by rcases hc with rfl | rfl | rfl | rfl | rfl <;> decide
      simp only [skipAllBlanks, this, Bool.true_or, if_true]
      exact ih fun y hy => hw y (by simp [hy])
  obtain ⟨-, -, a1, a2, a3, hs⟩ := alpha_case hx
  have hnb : ¬ Blank x := by
    intro h; rcases h with rfl | rfl | rfl | rfl | rfl <;> revert hx <;> decide
  have hnc : x ≠ '^' := by rintro rfl; revert hx; decide
  refine ⟨[' ', x, ':'], ?_, ?_⟩
  · simp only [abbreviated, hsk, if_true]; rfl
  · have hb : Wrote false [x, ':'] ([x, ':'] ++ []) :=
      .bare (by simp) (by intro c hc; simp at hc; subst hc; exact ⟨hnb, a3⟩) (by intro c hc; simp at hc; subst hc; decide)
    exact C102_text ex [' '] [x, ':'] _ false (by simp) hb (by simp) (by simpa using a1) (by simp [hnc.symm]) (by
      intro t ht; apply hex; intro c hc; have := ht c hc; simpa using this)

/-! ### What fails -/

/-- Enabling a drive that has a directory (the current drive has one from the start) reads memory that has been freed:
the value of the variable is freed before it is copied to the variable. -/
theorem C102_enable (cap : Nat) (dirExists : List Char → Bool) (ex : List Char → Res (List Char)) (s : DriveState) (a : Drives)
    (hrel : Rel s a) (line : List Char) (x : Char) (force quotes : Bool) (v : List Char)
    (hread : cdRead ex line = .ok (.go force quotes [x, ':'])) (hv : s.drives x.toLower = some v)
    (hex : ∃ d, setCurrentDir cap dirExists s.cur v = some d) : cmdCd cap dirExists ex s line = .ub := by
  obtain ⟨d, hd⟩ := hex
  obtain ⟨e, r, rfl, he⟩ := hrel.2.1 _ _ hv
  unfold cmdCd
  rw [hread]
  simp only [skipBlanks, if_true, hv]
  unfold cdGo
  simp only [List.head?_cons, Bool.or_true, if_true, hd, Option.map_some, he]

theorem canonLoop_root (pre post : List Char) (h : pre = [] ∧ (∀ c, post.head? = some c → sep c = true) ∨ pre.head? = some '\\') :
    canonLoop pre post = [] ∨ (canonLoop pre post).head? = some '\\' := by
  fun_induction canonLoop pre post with
  | case1 pre => rcases h with h | h; exact .inl h.1; exact .inr h
  | case2 pre c r hs r' hu hm ih =>
    apply ih
    have hp := beforeLast_prefix '\\' pre
    obtain ⟨t, ht⟩ := hp
    cases hb : PBat.beforeLast '\\' pre with
    | nil =>
      refine .inl ⟨rfl, ?_⟩
      have hu : isUp (swallow r) = true := hu
      intro c hc
      have e : r' = swallow r := rfl
      rw [e] at hc
      revert hu hc
      generalize swallow r = z
      intro hu hc
      unfold isUp at hu
      split at hu
      · simp at hc
      · simp at hc; subst hc; exact hu
      · cases hu
    | cons y ys =>
      rw [hb] at ht
      right
      rcases h with h | h
      · rw [h.1] at ht; simp at ht
      · rw [← ht] at h; exact h
  | case3 pre c r hs r' hu hm => rcases h with h | h; exact .inl h.1; exact .inr h
  | case4 pre c r hs r' hu he => rcases h with h | h; exact .inl h.1; exact .inr h
  | case5 pre c r hs r' hu he ih =>
    apply ih
    right
    rcases h with h | h
    · rw [h.1]; rfl
    · cases pre with | nil => simp at h | cons y ys => exact h
  | case6 pre c r hs ih =>
    apply ih
    right
    rcases h with h | h
    · exact absurd (h.2 c rfl) hs
    · cases pre with | nil => simp at h | cons y ys => exact h

/-- `CD \dir` loses the drive: the current directory begins with a backslash (or is empty), and this is recorded as the
directory of the drive left. -/
theorem C102_root (cap : Nat) (dirExists : List Char → Bool) (ex : List Char → Res (List Char)) (s : DriveState) (line : List Char)
    (force quotes : Bool) (y : Char) (r : List Char) (hy : sep y = false ∧ y ≠ ':')
    (hread : cdRead ex line = .ok (.go force quotes ('\\' :: y :: r))) (hex : dirExists ('\\' :: y :: r) = true) (hcap : 3 ≤ cap) :
    ∃ cur, cmdCd cap dirExists ex s line = .ok (⟨cur, setDrive s.drives (s.cur.headD '\x00') cur⟩, .done) ∧
      (cur = [] ∨ cur.head? = some '\\') := by
  have habs : absolute ('\\' :: y :: r) = true := by
    have hroot : rootPath ('\\' :: y :: r) = true := by simp [rootPath, hy.1, show sep '\\' = true by decide]
    simp [absolute, hroot]
  have hu : unc (('\\' :: y :: r).take (cap - 1)) = false := by
    have : cap - 1 = (cap - 3) + 1 + 1 := by omega
    rw [this, List.take_succ_cons, List.take_succ_cons]
    unfold unc
    split
    · rename_i h; injection h with _ h; injection h with h _; exact absurd h (sep_false hy.1).2
    · rfl
  have hset : setCurrentDir cap dirExists s.cur ('\\' :: y :: r) = some (canonLoop [] (('\\' :: y :: r).take (cap - 1))) := by
    unfold setCurrentDir
    rw [habs, hex, Bool.and_self, if_pos rfl, if_neg (by simp)]
    unfold canonicalize
    rw [hu, if_neg (by simp)]
  have hcmd : cmdCd cap dirExists ex s line = cdGo cap dirExists s force none none ('\\' :: y :: r) := by
    unfold cmdCd
    rw [hread]
    simp only
    split
    · rename_i h; injection h with _ h; injection h with h _; exact absurd h hy.2
    · rfl
  refine ⟨_, ?_, canonLoop_root [] (('\\' :: y :: r).take (cap - 1)) (.inl ⟨rfl, ?_⟩)⟩
  · rw [hcmd]
    unfold cdGo
    simp only [if_true, hset]
  · intro c hc
    have : cap - 1 = (cap - 2) + 1 := by omega
    rw [this, List.take_succ_cons] at hc
    simp at hc; subst hc; decide

/-- `CD /dir`, with the other separator, keeps the drive: it goes to the directory of that name on the current drive. -/
theorem C102_slash (cap : Nat) (dirExists : List Char → Bool) (ex : List Char → Res (List Char)) (s : DriveState) (line : List Char)
    (force quotes : Bool) (y : Char) (r : List Char) (hy : sep y = false ∧ y ≠ ':') {d : Char} (hd : d.isAlpha = true)
    {names : List (List Char)} (hcur : s.cur = dirText d names)
    (hread : cdRead ex line = .ok (.go force quotes ('/' :: y :: r))) (hex : dirExists ('/' :: y :: r) = true)
    (hup : ¬ Climbs [] (comps (y :: r))) (hfit : r.length + 5 ≤ cap) :
    cmdCd cap dirExists ex s line = .ok (⟨dirText d (walkDirs [] (comps (y :: r))).reverse,
      setDrive s.drives d (dirText d (walkDirs [] (comps (y :: r))).reverse)⟩, .done) := by
  obtain ⟨-, -, a1, a2, -, -⟩ := alpha_case hd
  have habs : absolute ('/' :: y :: r) = true := by
    have hroot : rootPath ('/' :: y :: r) = true := by simp [rootPath, hy.1, show sep '/' = true by decide]
    simp [absolute, hroot]
  have hset : setCurrentDir cap dirExists s.cur ('/' :: y :: r) = some (dirText d (walkDirs [] (comps (y :: r))).reverse) := by
    unfold setCurrentDir
    rw [habs, hex, Bool.and_self, if_pos rfl, if_pos (show ('/' :: y :: r).head? = some '/' from rfl), hcur, if_neg (by simp [dirText]), List.take_of_length_le (l := '/' :: y :: r) (by simp; omega)]
    have := canonicalize_drive ⟨a1, a2⟩ [] (by simp) (show sep '/' = true by decide) (y :: r)
    rw [show dirText d [] ++ '/' :: y :: r = d :: ':' :: '/' :: y :: r from rfl] at this
    rw [show (dirText d names).take 2 ++ '/' :: y :: r = d :: ':' :: '/' :: y :: r from rfl, this]
    rw [if_neg (by simpa using hup)]
    rfl
  have hcmd : cmdCd cap dirExists ex s line = cdGo cap dirExists s force none none ('/' :: y :: r) := by
    unfold cmdCd
    rw [hread]
    simp only
    split
    · rename_i h; injection h with _ h; injection h with h _; exact absurd h hy.2
    · rfl
  rw [hcmd]
  unfold cdGo
  simp only [if_true, hset]
  rw [hcur]; rfl

/-- After that, a path on the drive one is on does not move any more without `/d`. -/
theorem C102_lost (cap : Nat) (dirExists : List Char → Bool) (ex : List Char → Res (List Char)) (s : DriveState) (line : List Char)
    (quotes : Bool) (e : Char) (r : List Char) (he : e.isAlpha = true) (hcur : s.cur = [] ∨ s.cur.head? = some '\\')
    (hread : cdRead ex line = .ok (.go false quotes (e :: ':' :: '\\' :: r))) :
    ∃ s', cmdCd cap dirExists ex s line = .ok (s', .done) ∧ s'.cur = s.cur := by
  have hup : e.toUpper ≠ '\x00' ∧ e.toUpper ≠ '\\' := by
    have key : ∀ n < 128, (Char.ofNat n).isAlpha = true → (Char.ofNat n).toUpper ≠ '\x00' ∧ (Char.ofNat n).toUpper ≠ '\\' := by decide
    have := key e.toNat (alpha_ascii he)
    rw [Char.ofNat_toNat] at this
    exact this he
  have hm : (e.toUpper == (s.cur.headD '\x00').toUpper || false) = false := by
    simp only [Bool.or_false, beq_eq_false_iff_ne]
    rcases hcur with h | h
    · rw [h]; exact hup.1
    · cases hc : s.cur with
      | nil => rw [hc] at h; simp at h
      | cons z zs => rw [hc] at h; simp at h; subst h; exact hup.2
  unfold cmdCd
  rw [hread]
  simp only
  rw [if_neg (by simp [skipBlanks, isDelim])]
  unfold cdGo
  simp only [hm, Bool.false_eq_true, if_false]
  exact ⟨_, rfl, rfl⟩

/-- A directory on another drive is recorded whether it exists or not, and the drive cannot be entered afterwards. -/
theorem C102_unchecked (cap : Nat) (dirExists : List Char → Bool) (there : Char → List (List Char) → Bool)
    (hw : World dirExists there) (ex : List Char → Res (List Char)) (s : DriveState) (a : Drives) (hrel : Rel s a)
    (line line2 : List Char) (e x : Char) (r : List Char) (quotes q2 f2 : Bool)
    (hread : cdRead ex line = .ok (.go false quotes (e :: ':' :: r))) (hread2 : cdRead ex line2 = .ok (.go f2 q2 [x, ':']))
    (hx : x.toLower = e.toLower) (hp : Plain a (.abs false e r)) (hother : e.toLower ≠ a.cur)
    (hmissing : there e.toLower (walkDirs [] (comps r)) = false)
    (hfit : s.cur.length + (r.length + 2) + 1 < cap) :
    ∃ s', cmdCd cap dirExists ex s line = .ok (s', .done) ∧ s'.cur = s.cur ∧
      cmdCd cap dirExists ex s' line2 = .ok (s', .failed) := by
  obtain ⟨⟨d, names, hd, hn, hcur, hac, had⟩, hform, hdirs⟩ := hrel
  obtain ⟨he, hr, hup⟩ := hp
  have hhead : s.cur.headD '\x00' = d := by rw [hcur]; rfl
  have hm : (e.toUpper == d.toUpper || false) = false := by
    rw [Bool.or_false, beq_eq_false_iff_ne, Ne, same_drive he hd, ← hac]; exact hother
  have hne : skipBlanks r ≠ [] := by
    obtain ⟨c, hc, hs⟩ := hr
    cases r with
    | nil => simp at hc
    | cons y r =>
      simp at hc; subst hc
      rcases hs with rfl | rfl <;> simp [skipBlanks, isDelim]
  have h1 : cmdCd cap dirExists ex s line = .ok (⟨s.cur, setDrive s.drives e (e :: ':' :: r)⟩, .done) := by
    unfold cmdCd
    rw [hread]
    simp only
    rw [if_neg hne]
    unfold cdGo
    simp only [hhead, hm, Bool.false_eq_true, if_false]
    rfl
  refine ⟨_, h1, rfl, ?_⟩
  have hmove := abs_move (cap := cap) hw hd hn he hr hup (by rw [← hcur]; omega)
  rw [hmissing, if_neg (by simp), ← hcur] at hmove
  unfold cmdCd
  rw [hread2]
  simp only [skipBlanks, if_true, setDrive, hx, if_neg (show ¬ (e :: ':' :: r = []) by simp)]
  unfold cdGo
  simp only [List.head?_cons, Bool.or_true, if_true, hmove]

/-- A drive in quotes, nobody having been on it, is looked for as an entry of the current directory whose name begins
with a quote. -/
theorem C102_quoted (cap : Nat) (dirExists : List Char → Bool) (there : Char → List (List Char) → Bool)
    (hw : World dirExists there) (ex : List Char → Res (List Char)) (s : DriveState) (a : Drives) (hrel : Rel s a)
    (line : List Char) (x : Char) (force : Bool) (hx : x.isAlpha = true) (hread : cdRead ex line = .ok (.go force true [x, ':']))
    (hnone : s.drives x.toLower = none) (hfit : s.cur.length + 4 < cap) :
    cmdCd cap dirExists ex s line = .ok (s, .failed) := by
  obtain ⟨⟨d, names, hd, hn, hcur, hac, had⟩, hform, hdirs⟩ := hrel
  obtain ⟨-, -, a1, a2, a3, hs⟩ := alpha_case hx
  have hcl : comps ['"', x, ':'] = [['"', x, ':']] := by
    have : comps ['"', x, ':'] = parts (sl ['"', x, ':']) := rfl
    rw [this, show sl ['"', x, ':'] = ['"', x, ':'] by simp [sl, a2], parts_word (by simp [a1.symm])]
  have hwalk : walkDirs names.reverse (comps ['"', x, ':']) = ['"', x, ':'] :: names.reverse := by
    rw [hcl]
    conv => lhs; unfold walkDirs
    rw [if_neg (by simp), if_neg (by simp)]; rfl
  have hmove := rel_move (cap := cap) hw hd hn (p := ['"', x, ':']) (by intro c hc; simp at hc; subst hc; decide)
    (by have : x ≠ ':' := by rintro rfl; revert hx; decide
        simpa using this) (by
      rw [hcl]
      unfold Climbs
      rw [if_neg (by simp), if_neg (by simp)]; exact id) (by rw [← hcur]; simp; omega)
  rw [hwalk, hw.2 _ _ ⟨['"', x, ':'], by simp, by simp⟩, if_neg (by simp), ← hcur] at hmove
  unfold cmdCd
  rw [hread]
  simp only [skipBlanks, if_true, hnone]
  unfold cdGo
  simp only [List.head?_cons, Bool.or_true, if_true, hmove]

/-- `CD /?` does not show any help: it looks for a directory. -/
theorem C102_help : cdRead (fun t => .ok t) " /?".toList = .ok (.go false false "/?".toList) := by decide +kernel

/-! ### The hypotheses are met -/

/-- A directory exists if its names are letters only. -/
def lettersThere (_ : Char) (place : List (List Char)) : Bool := place.all fun c => ! c.contains ':'

example : World (fun t => lettersThere 'c' (walkDirs [] (comps (t.drop 2)))) lettersThere := by
  refine ⟨fun e r _ _ => rfl, ?_⟩
  rintro k place ⟨c, hc, hm⟩
  simp only [lettersThere, List.all_eq_false]
  exact ⟨c, hc, by simpa using hm⟩

/-- The start: a directory on drive `C`. -/
def startState : DriveState := ⟨"C:\\work".toList, setDrive (fun _ => none) 'C' "C:\\work".toList⟩

example : Rel startState ⟨'c', assoc (fun _ => none) 'c' ["work".toList]⟩ := by
  refine ⟨⟨'C', ["work".toList], by decide, by decide, by decide, by decide, by decide⟩, ?_, ?_⟩
  · intro k v h
    simp only [startState, setDrive] at h
    split at h
    · rename_i hk
      rw [if_neg (by decide)] at h
      cases h
      exact ⟨'C', _, rfl, hk.symm⟩
    · cases h
  · intro k
    simp only [startState, assoc, setDrive]
    rw [show 'C'.toLower = 'c' by decide]
    split
    · rw [if_neg (by decide)]; decide
    · rfl

example : (cdRead (fun t => .ok t) " src\\lib ".toList = .ok (.go false false "src\\lib".toList)) ∧
    (cdRead (fun t => .ok t) " /d \"D:\\My Documents\"".toList = .ok (.go true true "D:\\My Documents".toList)) := by
  decide +kernel

/-- What can be seen of a result. -/
def seen (drives : List Char) : Res (DriveState × CdOut) → Option (List Char × CdOut × List (Option (List Char)))
  | .ok (s, out) => some (s.cur, out, drives.map s.drives)
  | _ => none

example : seen ['c', 'd'] (cmdCd 260 (fun _ => true) (fun t => .ok t) startState " /D d:/a\\..\\b".toList) =
    some ("d:\\b".toList, .done, [some "C:\\work".toList, some "d:/a\\..\\b".toList]) := by decide +kernel

example : seen [] (cmdCd 260 (fun _ => true) (fun t => .ok t) startState " C:".toList) = none := by decide +kernel

example : seen ['c'] (cmdCd 260 (fun _ => true) (fun t => .ok t) startState " /src/lib".toList) =
    some ("C:\\src\\lib".toList, .done, [some "C:\\src\\lib".toList]) := by decide +kernel

end PBat.Win
