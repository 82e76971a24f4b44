import Verif.Props.C79
import Verif.Lemmas.If
import Verif.Lemmas.Num
import Verif.Lemmas.Def
import Verif.Lemmas.ReplaceI
import Verif.Lemmas.Batbox
import Verif.Spec.MoreCmd
/-
C101: the command line of MORE.
-/
namespace PBat
open Spec

/-- The variables after these items. -/
def moreAfter (find : List Char → List (List Char)) (w : MoreVars) : List MoreItem → MoreVars
  | [] => w
  | .ignored :: l => moreAfter find w l
  | .clear :: l => moreAfter find { w with opts := { w.opts with clear := true } } l
  | .squeeze :: l => moreAfter find { w with opts := { w.opts with squeeze := true } } l
  | .bytes :: l => moreAfter find { w with opts := { w.opts with u8 := false } } l
  | .codes :: l => moreAfter find { w with opts := { w.opts with ansi := false } } l
  | .tab n :: l => moreAfter find { w with opts := { w.opts with tab := n } } l
  | .start n :: l => moreAfter find { w with begin := n } l
  | .file f :: l => moreAfter find { w with files := w.files ++ find f } l

theorem moreAfter_eq (find : List Char → List (List Char)) (l : List MoreItem) : ∀ w : MoreVars, moreAfter find w l =
    { opts := { squeeze := w.opts.squeeze || l.contains .squeeze
                ansi := w.opts.ansi && !l.contains .codes
                u8 := w.opts.u8 && !l.contains .bytes
                clear := w.opts.clear || l.contains .clear
                tab := (l.filterMap fun | .tab n => some (n : Int) | _ => none).getLast?.getD w.opts.tab }
      begin := (l.filterMap fun | .start n => some (n : Int) | _ => none).getLast?.getD w.begin
      files := w.files ++ (moreNames l).flatMap find } := by
  induction l with
  | nil => intro w; simp [moreAfter, moreNames]
  | cons i l ih =>
    intro w
    cases i <;> rw [moreAfter, ih] <;> simp [moreNames, List.contains_cons, List.getLast?_cons]

theorem number_whole {x : List Char} {n : Nat} (h : Number x (n : Nat)) (hn : n < 2 ^ 31) :
    (strtol0 x).2 = [] ∧ longToInt (strtol0 x).1 = n := by
  have := strtol0_number h [] (by simp [NumEnd]) (by omega) (by omega)
  rw [List.append_nil] at this
  rw [this]
  exact ⟨rfl, longToInt_id (by omega) (by omega)⟩

theorem stri_no {w u : List Char} (h : fold w ≠ fold u) : ¬ stricmp w u = 0 := fun e => h (stricmp_zero.1 e)

theorem number_colon {x : List Char} {v : Int} (h : Number x v) : x.head? ≠ some ':' := by
  cases h with
  | plain hu =>
    obtain ⟨c, r, rfl, hc⟩ := unsigned_head hu
    intro e
    simp only [List.head?_cons, Option.some.injEq] at e
    subst e
    exact absurd hc (by decide)
  | plus => simp
  | minus => simp

theorem fold_tab (c : Char) (x : List Char) (h : c.toLower = 't') : fold ('/' :: c :: x) = '/' :: 't' :: fold x := by
  simp only [fold, List.map_cons, h]
  rfl

theorem moreWords_tab (find : List Char → List (List Char)) {c : Char} {x : List Char} (h : c.toLower = 't') (ps : List (List Char))
    (w : MoreVars) : moreWords find (('/' :: c :: x) :: ps) w =
      if (strtol0 (if x.head? = some ':' then x.drop 1 else x)).2 ≠ [] then .error 44
      else moreWords find ps
        { w with opts := { w.opts with tab := longToInt (strtol0 (if x.head? = some ':' then x.drop 1 else x)).1 } } := by
  have hf := fold_tab c x h
  have hne : ∀ d : Char, d ≠ 't' → fold ('/' :: c :: x) ≠ ['/', d] := by
    intro d hd e
    rw [hf] at e
    simp only [List.cons.injEq, true_and] at e
    exact hd e.1.symm
  rw [moreWords, if_neg, if_neg (stri_no (hne 'e' (by decide))), if_neg (stri_no (hne 'c' (by decide))),
    if_neg (stri_no (hne 'p' (by decide))), if_neg (stri_no (hne 's' (by decide))), if_neg (stri_no (hne 'u' (by decide))),
    if_neg (stri_no (hne 'a' (by decide))), if_pos]
  · rfl
  · show ('/'.toLower == '/'.toLower && ('T'.toLower == c.toLower && true)) = true
    rw [h]
    rfl
  · intro e
    exact hne '?' (by decide) (by rw [e]; rfl)

theorem moreWords_name (find : List Char → List (List Char)) {p : List Char} (ho : ∀ d, fold p ≠ ['/', d])
    (ht : ∀ c x, p = '/' :: c :: x → c.toLower ≠ 't') (hp : p.head? ≠ some '+') (ps : List (List Char)) (w : MoreVars) :
    moreWords find (p :: ps) w = if find p = [] then .error 42 else moreWords find ps { w with files := w.files ++ find p } := by
  rw [moreWords, if_neg, if_neg (stri_no (ho 'e')), if_neg (stri_no (ho 'c')), if_neg (stri_no (ho 'p')), if_neg (stri_no (ho 's')),
    if_neg (stri_no (ho 'u')), if_neg (stri_no (ho 'a')), if_neg, if_neg hp]
  · rw [prefixI_iff]
    rintro ⟨t, e⟩
    match p, e with
    | [], e => exact absurd (congrArg List.length e) (by simp)
    | [a], e => exact absurd (congrArg List.length e) (by simp)
    | a :: c :: x, e =>
      simp only [List.map_cons] at e
      injection e with e1 e2
      injection e2 with e2 e3
      have : a = '/' := toLower_slash e1.symm
      subst this
      exact ht c x rfl e2.symm
  · intro e
    exact ho '?' (by rw [e]; rfl)

theorem moreWords_plus (find : List Char → List (List Char)) (x : List Char) (ps : List (List Char)) (w : MoreVars) :
    moreWords find (('+' :: x) :: ps) w =
      if (strtol0 ('+' :: x)).2 ≠ [] then .error 44 else moreWords find ps { w with begin := longToInt (strtol0 ('+' :: x)).1 } := by
  have ho : ∀ d, fold ('+' :: x) ≠ ['/', d] := by
    intro d e
    simp only [fold, List.map_cons, List.cons.injEq] at e
    exact absurd e.1 (by decide)
  rw [moreWords, if_neg, if_neg (stri_no (ho 'e')), if_neg (stri_no (ho 'c')), if_neg (stri_no (ho 'p')), if_neg (stri_no (ho 's')),
    if_neg (stri_no (ho 'u')), if_neg (stri_no (ho 'a')), if_neg, if_pos (show ('+' :: x).head? = some '+' from rfl)]
  · rw [prefixI_iff]
    rintro ⟨t, e⟩
    simp only [List.map_cons] at e
    injection e with e1 e2
    exact absurd e1 (by decide)
  · intro e
    cases e

theorem moreWords_item (find : List Char → List (List Char)) {p : List Char} {i : MoreItem} (h : MoreSpelt p i)
    (hf : ∀ f, i = .file f → find f ≠ []) (ps : List (List Char)) (w : MoreVars) :
    moreWords find (p :: ps) w = moreWords find ps (moreAfter find w [i]) := by
  have hq : ∀ d, d ≠ '?' → fold p = ['/', d] → p ≠ "/?".toList := by
    rintro d hd e rfl
    simp only [fold] at e
    injection e with _ e
    injection e with e _
    exact hd e.symm
  have hs : ∀ d : Char, fold p = ['/', d] → ∀ u, fold u = ['/', d] → stricmp p u = 0 := fun d h1 u h2 => stricmp_zero.2 (h1.trans h2.symm)
  have hn : ∀ d : Char, fold p = ['/', d] → ∀ u, fold u ≠ ['/', d] → ¬ stricmp p u = 0 := fun d h1 u h2 =>
    stri_no (fun e => h2 (e.symm.trans h1))
  cases h with
  | e h => rw [moreWords, if_neg (hq _ (by decide) h), if_pos (hs _ h _ rfl)]; rfl
  | p h =>
    rw [moreWords, if_neg (hq _ (by decide) h), if_neg (hn _ h _ (by decide)), if_neg (hn _ h _ (by decide)), if_pos (hs _ h _ rfl)]; rfl
  | c h => rw [moreWords, if_neg (hq _ (by decide) h), if_neg (hn _ h _ (by decide)), if_pos (hs _ h _ rfl)]; rfl
  | s h =>
    rw [moreWords, if_neg (hq _ (by decide) h), if_neg (hn _ h _ (by decide)), if_neg (hn _ h _ (by decide)), if_neg (hn _ h _ (by decide)),
      if_pos (hs _ h _ rfl)]; rfl
  | u h =>
    rw [moreWords, if_neg (hq _ (by decide) h), if_neg (hn _ h _ (by decide)), if_neg (hn _ h _ (by decide)), if_neg (hn _ h _ (by decide)),
      if_neg (hn _ h _ (by decide)), if_pos (hs _ h _ rfl)]; rfl
  | a h =>
    rw [moreWords, if_neg (hq _ (by decide) h), if_neg (hn _ h _ (by decide)), if_neg (hn _ h _ (by decide)), if_neg (hn _ h _ (by decide)),
      if_neg (hn _ h _ (by decide)), if_neg (hn _ h _ (by decide)), if_pos (hs _ h _ rfl)]; rfl
  | t hc hx hl =>
    rw [moreWords_tab find hc, if_neg (number_colon hx), (number_whole hx hl).1, (number_whole hx hl).2, if_neg (by simp)]
    rfl
  | t' hc hx hl =>
    rw [moreWords_tab find hc]
    simp only [List.head?_cons, if_true, List.drop_one, List.tail_cons]
    rw [ (number_whole hx hl).1, (number_whole hx hl).2, if_neg (by simp)]
    rfl
  | n hx hl =>
    rw [moreWords_plus, (number_whole hx hl).1, (number_whole hx hl).2, if_neg (by simp)]
    rfl
  | name h1 h2 =>
    rw [moreWords_name find ?_ ?_ h2, if_neg (hf _ rfl)]
    · rfl
    · intro d e
      cases p with
      | nil => cases e
      | cons a x =>
        simp only [fold, List.map_cons, List.cons.injEq] at e
        exact h1 (by rw [toLower_slash e.1]; rfl)
    · rintro c x rfl
      exact absurd rfl h1
  | path h1 h2 =>
    rw [moreWords_name find ?_ ?_ (by simp), if_neg (hf _ rfl)]
    · rfl
    · intro d e
      have := congrArg List.length e
      simp [fold] at this
    · intro c' x' e
      cases e
      exact h2

theorem moreWords_items (find : List Char → List (List Char)) : ∀ (ps : List (List Char × MoreItem)) (rest : List (List Char)) (w : MoreVars),
    (∀ p ∈ ps, MoreSpelt p.1 p.2) → (∀ f ∈ moreNames (ps.map (·.2)), find f ≠ []) →
    moreWords find (ps.map (·.1) ++ rest) w = moreWords find rest (moreAfter find w (ps.map (·.2)))
  | [], _, _, _, _ => rfl
  | p :: ps, rest, w, h, hf => by
    rw [List.map_cons, List.cons_append, moreWords_item find (h p (by simp)), moreWords_items find ps rest _ (fun q hq => h q (by simp [hq]))]
    · congr 1
      obtain ⟨a, i⟩ := p
      cases i <;> rfl
    · intro f hm
      apply hf
      obtain ⟨a, i⟩ := p
      cases i <;> simp_all [moreNames]
    · intro f e
      apply hf
      simp [moreNames, e]

theorem moreAfter_all (find : List Char → List (List Char)) (l : List MoreItem) : moreAfter find {} l =
    { opts := moreOptions l, begin := (moreStart l : Int), files := (moreNames l).flatMap find } := by
  rw [moreAfter_eq]
  have hs : (l.filterMap fun | .start n => some (n : Int) | _ => none).getLast?.getD 0 = (moreStart l : Int) := by
    unfold moreStart
    have : (l.filterMap fun | .start n => some (n : Int) | _ => none) =
        (l.filterMap fun | .start n => some n | _ => none).map (Int.ofNat) := by
      rw [List.map_filterMap]
      congr 1
      funext i
      cases i <;> rfl
    rw [this, List.getLast?_map]
    cases (l.filterMap fun | .start n => some n | _ => none).getLast? <;> rfl
  simp only [hs, Bool.false_or, Bool.true_and, List.nil_append]
  rfl

theorem moreOver_eq (d : MoreDisk) (o : MoreOpts) (n : Nat) : ∀ (fs : List (List Char)) (ss : List (List Nat)) (t : MoreState),
    fs.map d.bytes = ss.map some → moreOver d o n t fs = moreFiles o n t ss
  | [], [], _, _ => rfl
  | f :: fs, s :: ss, t, h => by
    simp only [List.map_cons, List.cons.injEq] at h
    rw [moreOver, h.1, moreFiles]
    simp only
    cases moreFile o n t s with
    | ub => rfl
    | hang => rfl
    | ok x =>
      obtain ⟨a, t'⟩ := x
      simp only [bind, Res.bind]
      rw [moreOver_eq d o n fs ss t' h.2]
      cases moreFiles o n t' ss with
      | ub => rfl
      | hang => rfl
      | ok x => rfl

theorem moreStart_small {ps : List (List Char × MoreItem)} (h : ∀ p ∈ ps, MoreSpelt p.1 p.2) : moreStart (ps.map (·.2)) < 2 ^ 31 := by
  unfold moreStart
  cases he : ((ps.map (·.2)).filterMap fun | .start n => some n | _ => none).getLast? with
  | none => simp
  | some n =>
    have hm := List.mem_of_getLast? he
    simp only [List.mem_filterMap, List.mem_map] at hm
    obtain ⟨i, ⟨p, hp, rfl⟩, hi⟩ := hm
    have hsp := h p hp
    revert hi hsp
    generalize p.1 = a
    generalize p.2 = i
    intro hi hsp
    cases hsp with
    | n _ hn => simp only [Option.some.injEq] at hi; subst hi; simpa using hn
    | _ => simp at hi

/-- MORE shows the files its line names, those of each name in the order they are found, with the options of the line, wherever they are written,
the last of each number; without names it shows its input. -/
theorem C101_shows_partial (d : MoreDisk) (ps : List (List Char × MoreItem)) (t t' : MoreState) (input : List Nat) (ss : List (List Nat))
    (out : List Nat) (h : ∀ p ∈ ps, MoreSpelt p.1 p.2) (hfound : ∀ f ∈ moreNames (ps.map (·.2)), d.find f ≠ [])
    (hdirs : moreNames (ps.map (·.2)) = [] ∨ ((moreNames (ps.map (·.2))).flatMap d.find).filter (fun f => !d.isDir f) ≠ [])
    (hread : (((moreNames (ps.map (·.2))).flatMap d.find).filter fun f => !d.isDir f).map d.bytes = ss.map some)
    (hshow : moreFiles (moreOptions (ps.map (·.2))) (moreStart (ps.map (·.2))) t
      (if moreNames (ps.map (·.2)) = [] then [input] else ss) = .ok (out, t')) :
    cmdMore d (ps.map (·.1)) t input = .ok (.text out 0, t') := by
  have hw := moreWords_items d.find ps [] {} h hfound
  rw [List.append_nil, moreAfter_all] at hw
  have hn : ((moreStart (ps.map fun x : List Char × MoreItem => x.2) : Int) % 2 ^ 32).toNat = moreStart (ps.map (·.2)) := by
    have := moreStart_small h
    omega
  unfold cmdMore
  rw [hw]
  simp only [moreWords, hn]
  by_cases h0 : moreNames (ps.map (·.2)) = []
  · rw [if_pos (by rw [h0]; rfl)]
    rw [if_pos h0] at hshow
    simp only [moreFiles] at hshow
    revert hshow
    cases moreFile (moreOptions (ps.map (·.2))) (moreStart (ps.map (·.2))) t input with
    | ub => intro hs; cases hs
    | hang => intro hs; cases hs
    | ok x =>
      obtain ⟨a, t1⟩ := x
      intro hs
      simp only [bind, Res.bind, List.append_nil] at hs
      cases hs
      rfl
  · rw [if_neg h0] at hshow
    rcases hdirs with hd | hd
    · exact absurd hd h0
    rw [if_neg (fun e => hd (by rw [e]; rfl)), if_neg hd, moreOver_eq d _ _ _ _ _ hread, hshow]

/-- One file of ordinary lines: its rows are shown, without those before the start (with the rows of C79). -/
theorem C101_rows_partial (d : MoreDisk) (ps : List (List Char × MoreItem)) (input : List Nat) (f g : List Char) (ls : List CellLine)
    (last : CellLine) (h : ∀ p ∈ ps, MoreSpelt p.1 p.2) (hone : moreNames (ps.map (·.2)) = [f]) (hfound : d.find f = [g])
    (hdir : d.isDir g = false) (hread : d.bytes g = some (moreText ls last))
    (h0 : 0 < (moreOptions (ps.map (·.2))).tab) (h80 : (moreOptions (ps.map (·.2))).tab < 80)
    (hr : ∀ l ∈ ls, ∀ c ∈ l, Readable (moreOptions (ps.map (·.2))) c) (hrl : ∀ c ∈ last, Readable (moreOptions (ps.map (·.2))) c)
    (hf : ∀ l ∈ ls, RowFits (moreOptions (ps.map (·.2))).tab.toNat 0 l) (hfl : RowFits (moreOptions (ps.map (·.2))).tab.toNat 0 last)
    (hend : endColumn (moreOptions (ps.map (·.2))).tab.toNat 0 last ≠ 79)
    (hsq : MoreItem.squeeze ∈ ps.map (·.2) → ∀ l ∈ ls, l ≠ [] → endColumn (moreOptions (ps.map (·.2))).tab.toNat 0 l ≠ 0)
    (hn : NoneLost (moreOptions (ps.map (·.2))).tab.toNat false ls) :
    ∃ t', cmdMore d (ps.map (·.1)) {} input =
      .ok (.text ((ended (shownRows (moreOptions (ps.map (·.2))).tab.toNat ((ps.map (·.2)).contains .squeeze) false ls) ++
        endedButLast (rowsOf (moreOptions (ps.map (·.2))).tab.toNat last)).drop (moreStart (ps.map (·.2)))).flatten 0, t') := by
  obtain ⟨t', e⟩ := C79_rows_partial (moreOptions (ps.map (·.2))) h0 h80 ls last hr hrl hf hfl hend
    (by intro hs; exact hsq (by simpa [moreOptions] using hs)) hn (moreStart (ps.map (·.2)))
  refine ⟨t', ?_⟩
  refine C101_shows_partial d ps {} t' input [moreText ls last] _ h ?_ ?_ ?_ ?_
  · rw [hone]; simp [hfound]
  · right; rw [hone]; simp [hfound, hdir]
  · rw [hone]; simp [hfound, hdir, hread]
  · rw [hone, if_neg (by simp)]
    simp only [moreFiles, e, bind, Res.bind, List.append_nil]
    rfl

/-- A name that stands for no file: nothing is shown, whatever was named before, and the status tells it. -/
theorem C101_missing (d : MoreDisk) (ps : List (List Char × MoreItem)) (rest : List (List Char)) (f : List Char) (t : MoreState)
    (input : List Nat) (h : ∀ p ∈ ps, MoreSpelt p.1 p.2) (hfound : ∀ g ∈ moreNames (ps.map (·.2)), d.find g ≠ [])
    (hf : MoreSpelt f (.file f)) (hno : d.find f = []) :
    cmdMore d (ps.map (·.1) ++ f :: rest) t input = .ok (.text [] 42, t) := by
  unfold cmdMore
  rw [moreWords_items d.find ps _ {} h hfound]
  have : ∀ w, moreWords d.find (f :: rest) w = .error 42 := by
    intro w
    cases hf with
    | name h1 h2 =>
      rw [moreWords_name d.find ?_ ?_ h2, if_pos hno]
      · intro e he
        cases f with
        | nil => cases he
        | cons a x =>
          simp only [fold, List.map_cons, List.cons.injEq] at he
          exact h1 (by rw [toLower_slash he.1]; rfl)
      · rintro c x rfl
        exact absurd rfl h1
    | path h1 h2 =>
      rw [moreWords_name d.find ?_ ?_ (by simp), if_pos hno]
      · intro e he
        have := congrArg List.length he
        simp [fold] at this
      · intro c' x' e
        cases e
        exact h2
  rw [this]

/-- The help, after any options and names. -/
theorem C101_help (d : MoreDisk) (ps : List (List Char × MoreItem)) (rest : List (List Char)) (t : MoreState) (input : List Nat)
    (h : ∀ p ∈ ps, MoreSpelt p.1 p.2) (hfound : ∀ g ∈ moreNames (ps.map (·.2)), d.find g ≠ []) :
    cmdMore d (ps.map (·.1) ++ ['/', '?'] :: rest) t input = .ok (.help, t) := by
  unfold cmdMore
  rw [moreWords_items d.find ps _ {} h hfound, moreWords, if_pos (show ['/', '?'] = "/?".toList from rfl)]

/-- Violation: files whose path begins with `/t`, as all those in `/tmp`, cannot be shown: the path is taken for an option with a wrong number. -/
theorem C101_slash_t (d : MoreDisk) (c e : Char) (x : List Char) (rest : List (List Char)) (t : MoreState) (input : List Nat)
    (hc : c.toLower = 't') (he : e.isAlpha = true) :
    cmdMore d (('/' :: c :: e :: x) :: rest) t input = .ok (.text [] 44, t) := by
  have hcol : e ≠ ':' := by rintro rfl; exact absurd he (by decide)
  unfold cmdMore
  rw [moreWords_tab d.find hc, if_neg (show (e :: x).head? ≠ some ':' by simpa using hcol), Box.strtol0_alpha x he, if_pos (by simp)]

/-- A name that matches directories only is reported as matching nothing. -/
theorem C101_directories (d : MoreDisk) (f : List Char) (t : MoreState) (input : List Nat) (hf : MoreSpelt f (.file f))
    (hfind : d.find f ≠ []) (hdir : ∀ g ∈ d.find f, d.isDir g = true) : cmdMore d [f] t input = .ok (.text [] 42, t) := by
  unfold cmdMore
  rw [moreWords_item d.find hf (by intro f' e; cases e; exact hfind)]
  simp only [moreWords, moreAfter, List.nil_append]
  rw [if_neg hfind, if_pos]
  rw [List.filter_eq_nil_iff]
  intro g hg
  simp [hdir g hg]

/-- Violation: a file that cannot be opened makes MORE close a null stream. -/
theorem C101_unreadable (d : MoreDisk) (f g : List Char) (t : MoreState) (input : List Nat) (hf : MoreSpelt f (.file f))
    (hfind : d.find f = [g]) (hdir : d.isDir g = false) (hno : d.bytes g = none) : cmdMore d [f] t input = .ub := by
  unfold cmdMore
  rw [moreWords_item d.find hf (by intro f' e; cases e; rw [hfind]; simp)]
  simp only [moreWords, moreAfter, hfind, List.nil_append]
  rw [if_neg (by simp), if_neg (by simp [hdir])]
  simp [hdir, moreOver, hno]

/-- Violation: `/T` without its number is no error; the width is 0, and a tabulation divides by it. -/
theorem C101_no_number (d : MoreDisk) (c : Char) (t : MoreState) (s : List Nat) (hc : c.toLower = 't') :
    cmdMore d [['/', c]] t (9 :: s) = .ub := by
  unfold cmdMore
  rw [moreWords_tab d.find hc]
  have : strtol0 [] = (0, []) := by decide
  simp only [List.head?_nil, reduceCtorEq, if_false, this, ne_eq, not_true_eq_false, moreWords]
  rw [if_pos trivial]
  have h := C79_tab_zero { tab := longToInt 0 } (by decide) ((0 : Int) % 2 ^ 32).toNat t s
  rw [h]

/-! Examples -/

def exMore : MoreDisk where
  find p := if p = ['a', '*'] then [['a', '1'], ['a', '2']] else if p = ['b'] then [['b']] else []
  isDir p := p = ['a', '2']
  bytes p := if p = ['a', '1'] then some [97, 10, 10, 10, 98, 10] else if p = ['b'] then some [99, 10, 100, 10] else none

/-- `more a* /s +1 b`. -/
example : cmdMore exMore [['a', '*'], ['/', 's'], ['+', '1'], ['b']] {} [] = .ok (.text [10, 98, 10, 100, 10] 0, {}) :=
  C101_shows_partial exMore [(['a', '*'], .file ['a', '*']), (['/', 's'], .squeeze), (['+', '1'], .start 1), (['b'], .file ['b'])] {} {} []
    [[97, 10, 10, 10, 98, 10], [99, 10, 100, 10]] _
    (by
      intro p hp
      simp only [List.mem_cons, List.not_mem_nil, or_false] at hp
      rcases hp with rfl | rfl | rfl | rfl
      · exact .name (by decide) (by decide)
      · exact .s rfl
      · exact .n (n := 1) (.plus (.dec (c := '1') (ds := []) (by decide) (by simp))) (by decide)
      · exact .name (by decide) (by decide))
    (by decide) (Or.inr (by decide)) (by decide) (by decide +kernel)

/-- `more /C /T:4` shows its input. -/
example : ∃ t', cmdMore exMore [['/', 'C'], "/T:4".toList] {} [9, 97, 10] = .ok (.text [32, 32, 32, 32, 97, 10] 0, t') :=
  ⟨_, C101_shows_partial exMore [(['/', 'C'], .clear), ("/T:4".toList, .tab 4)] {} {} [9, 97, 10] [] _
    (by
      intro p hp
      simp only [List.mem_cons, List.not_mem_nil, or_false] at hp
      rcases hp with rfl | rfl
      · exact .c rfl
      · exact .t' (n := 4) (by decide) (.plain (.dec (c := '4') (ds := []) (by decide) (by simp))) (by decide))
    (by decide) (Or.inl (by decide)) (by decide) (by decide +kernel)⟩

/-- `more /tmp/x`. -/
example (d : MoreDisk) : cmdMore d ["/tmp/x".toList] {} [] = .ok (.text [] 44, {}) :=
  C101_slash_t d 't' 'm' "p/x".toList [] {} [] (by decide) (by decide)

/-- `more b none`: nothing of `b` is shown. -/
example : cmdMore exMore [['b'], ['n']] {} [] = .ok (.text [] 42, {}) :=
  C101_missing exMore [(['b'], .file ['b'])] [] ['n'] {} [] (by simpa using .name (by decide) (by decide)) (by decide)
    (.name (by decide) (by decide)) rfl

end PBat
