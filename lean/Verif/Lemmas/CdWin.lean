import Verif.Model.CdWin
import Verif.Spec.CdWin
import Verif.Lemmas.Cd
/-
Helper lemmas for the directories of drives.
-/
namespace PBat.Win
open Spec

/-- The text with `/` for every separator. -/
def sl (p : List Char) : List Char := p.map fun c => if c = '\\' then '/' else c

theorem sl_nil : sl [] = [] := rfl
theorem sl_append (a b : List Char) : sl (a ++ b) = sl a ++ sl b := by simp [sl]
theorem sl_length (a : List Char) : (sl a).length = a.length := by simp [sl]

theorem sl_sep {c : Char} (h : sep c = true) (r : List Char) : sl (c :: r) = '/' :: sl r := by
  simp only [sep, Bool.or_eq_true, beq_iff_eq] at h
  rcases h with rfl | rfl <;> simp [sl]

theorem sl_other {c : Char} (h : sep c = false) (r : List Char) : sl (c :: r) = c :: sl r := by
  simp only [sep, Bool.or_eq_false_iff, beq_eq_false_iff_ne] at h
  simp [sl, h.2]

theorem sep_false {c : Char} (h : sep c = false) : c ≠ '/' ∧ c ≠ '\\' := by
  simpa [sep, Bool.or_eq_false_iff] using h

theorem swallow_sl (r : List Char) : PBat.swallow (sl r) = sl (swallow r) := by
  fun_induction swallow r with
  | case1 => rfl
  | case2 c r h ih => rw [sl_sep h]; simp only [PBat.swallow]; exact ih
  | case3 c h1 h2 =>
    have : c = '.' := by simpa using h2
    subst this; rfl
  | case4 c h1 h2 d r h3 ih =>
    have : c = '.' := by simpa using h2
    subst this
    rw [sl_other (by decide), sl_sep h3]; simp only [PBat.swallow]; exact ih
  | case5 c h1 h2 d r h3 =>
    have : c = '.' := by simpa using h2
    subst this
    have h3 : sep d = false := by simpa using h3
    rw [sl_other (by decide), sl_other h3]
    have := (sep_false h3).1
    unfold PBat.swallow
    split <;> simp_all
  | case6 c r h1 h2 =>
    have h1 : sep c = false := by simpa using h1
    rw [sl_other h1]
    have := (sep_false h1).1
    have h2 : c ≠ '.' := by simpa using h2
    unfold PBat.swallow
    split <;> simp_all

theorem isUp_sl (r : List Char) : PBat.isUp (sl r) = isUp r := by
  match r with
  | [] => rfl
  | [a] => simp only [sl, List.map_cons, List.map_nil]; unfold PBat.isUp isUp; split <;> simp_all
  | [a, b] =>
    have h : ∀ c : Char, (if c = '\\' then '/' else c) = '.' ↔ c = '.' := by
      intro c; split <;> simp_all
    by_cases ha : a = '.' <;> by_cases hb : b = '.'
    · subst ha hb; rfl
    all_goals
      have e : PBat.isUp (sl [a, b]) = false := by
        simp only [sl, List.map_cons, List.map_nil]
        unfold PBat.isUp
        split <;> simp_all
      rw [e]; unfold isUp
      split <;> simp_all
  | a :: b :: c :: t =>
    have h : ∀ c : Char, (if c = '\\' then '/' else c) = '.' ↔ c = '.' := by
      intro c; split <;> simp_all
    by_cases ha : a = '.' <;> by_cases hb : b = '.'
    · subst ha hb
      cases hc : sep c with
      | true => rw [sl_other (by decide), sl_other (by decide), sl_sep hc]; simp [PBat.isUp, isUp, hc]
      | false =>
        rw [sl_other (by decide), sl_other (by decide), sl_other hc]
        have := (sep_false hc).1
        simp only [isUp, hc]
        unfold PBat.isUp
        split <;> simp_all
    all_goals
      have e : PBat.isUp (sl (a :: b :: c :: t)) = false := by
        simp only [sl, List.map_cons]
        unfold PBat.isUp
        split <;> simp_all
      rw [e]; unfold isUp
      split <;> simp_all

theorem swallow_nil_iff (r : List Char) : sl (swallow r) = [] ↔ swallow r = [] := by
  rw [← List.length_eq_zero_iff, sl_length, List.length_eq_zero_iff]

theorem mem_sl {p : List Char} (h : '/' ∉ p) : '/' ∈ sl p ↔ '\\' ∈ p := by
  simp only [sl, List.mem_map]
  constructor
  · rintro ⟨c, hc, e⟩
    split at e
    · subst_vars; exact hc
    · subst e; exact absurd hc h
  · intro hc; exact ⟨_, hc, by simp⟩

theorem dropWhile_sl {p : List Char} (h : '/' ∉ p) : (sl p).dropWhile (· != '/') = sl (p.dropWhile (· != '\\')) := by
  induction p with
  | nil => rfl
  | cons c p ih =>
    have hc : c ≠ '/' := by rintro rfl; exact h (by simp)
    by_cases e : c = '\\'
    · subst e
      rw [sl_sep (by decide), List.dropWhile_cons, List.dropWhile_cons]
      simp [sl]
    · rw [sl_other (by simp [sep, hc, e]), List.dropWhile_cons, List.dropWhile_cons, if_pos (by simpa using hc), if_pos (by simpa using e)]
      exact ih fun hx => h (by simp [hx])

theorem beforeLast_sl {p : List Char} (h : '/' ∉ p) : PBat.beforeLast '/' (sl p) = sl (PBat.beforeLast '\\' p) := by
  unfold PBat.beforeLast
  by_cases hm : '\\' ∈ p
  · rw [if_pos hm, if_pos ((mem_sl h).2 hm)]
    have : (sl p).reverse = sl p.reverse := by simp [sl]
    rw [this, dropWhile_sl (by simpa using h)]
    simp [sl, List.map_drop]
  · rw [if_neg hm, if_neg (fun e => hm ((mem_sl h).1 e))]

theorem beforeLast_prefix (q : Char) (p : List Char) : PBat.beforeLast q p <+: p := by
  unfold PBat.beforeLast
  split
  · have : ((p.reverse.dropWhile (· != q)).drop 1) <:+ p.reverse :=
      (List.drop_suffix _ _).trans (List.dropWhile_suffix _)
    have := List.reverse_prefix.2 this
    simpa using this
  · exact List.prefix_refl _

theorem last_of_mem {x : Char} {t : List Char} (h : x ∈ t) : ∃ u w, t = u ++ x :: w ∧ x ∉ w := by
  induction t with
  | nil => simp at h
  | cons y t ih =>
    by_cases ht : x ∈ t
    · obtain ⟨u, w, e, hw⟩ := ih ht
      exact ⟨y :: u, w, by rw [e]; rfl, hw⟩
    · rcases List.mem_cons.1 h with e | e
      · exact ⟨[], t, by rw [e]; rfl, ht⟩
      · exact absurd e ht

/-- The loop on texts with both separators does what the loop on texts with `/` does, as long as the path begins with
something else than a separator. -/
theorem canonLoop_sl (pre post : List Char) (h1 : '/' ∉ pre) (h2 : ∃ c t, pre = c :: t ∧ c ≠ '\\') :
    sl (canonLoop pre post) = PBat.canonLoop (sl pre) (sl post) ∧ '/' ∉ canonLoop pre post := by
  fun_induction canonLoop pre post with
  | case1 pre => exact ⟨by rw [sl_nil, PBat.canonLoop.eq_def], h1⟩
  | case2 pre c r hs r' hu hm ih =>
    have hne : ∃ c t, PBat.beforeLast '\\' pre = c :: t ∧ c ≠ '\\' := by
      obtain ⟨c, t, rfl, hc⟩ := h2
      have hm' : '\\' ∈ t := by
        rcases List.mem_cons.1 hm with e | e
        · exact absurd e.symm hc
        · exact e
      obtain ⟨u, w, e, hw⟩ := last_of_mem hm'
      have : PBat.beforeLast '\\' (c :: t) = c :: u := by
        unfold PBat.beforeLast
        rw [if_pos hm, e]
        have hr : (c :: (u ++ '\\' :: w)).reverse = w.reverse ++ '\\' :: (c :: u).reverse := by simp
        rw [hr, List.dropWhile_append_of_pos (by
          intro x hx
          simp only [bne_iff_ne]; rintro rfl; exact hw (by simpa using hx))]
        simp
      exact ⟨c, u, this, hc⟩
    obtain ⟨i1, i2⟩ := ih (fun hx => h1 ((beforeLast_prefix _ _).subset hx)) hne
    refine ⟨?_, i2⟩
    rw [i1, sl_sep hs]
    conv => rhs; rw [PBat.canonLoop.eq_def]
    simp only [beq_self_eq_true, if_true]
    have hu : isUp (swallow r) = true := hu
    rw [swallow_sl, isUp_sl, if_pos hu, if_pos ((mem_sl h1).2 hm), beforeLast_sl h1]
    simp only [r', sl, List.map_drop]
  | case3 pre c r hs r' hu hm =>
    refine ⟨?_, h1⟩
    rw [sl_sep hs]
    conv => rhs; rw [PBat.canonLoop.eq_def]
    simp only [beq_self_eq_true, if_true]
    have hu : isUp (swallow r) = true := hu
    rw [swallow_sl, isUp_sl, if_pos hu, if_neg (fun e => hm ((mem_sl h1).1 e)), if_neg]
    obtain ⟨c, t, rfl, hc⟩ := h2
    simp [sl]
  | case4 pre c r hs r' hu he =>
    refine ⟨?_, h1⟩
    rw [sl_sep hs]
    conv => rhs; rw [PBat.canonLoop.eq_def]
    simp only [beq_self_eq_true, if_true]
    have hu : ¬ isUp (swallow r) = true := hu
    rw [swallow_sl, isUp_sl, if_neg hu, if_pos]
    refine ⟨(swallow_nil_iff r).2 he.1, ?_⟩
    obtain ⟨c, t, rfl, hc⟩ := h2
    simp [sl]
  | case5 pre c r hs r' hu he ih =>
    obtain ⟨i1, i2⟩ := ih (by simp [h1]) (by obtain ⟨c, t, rfl, hc⟩ := h2; exact ⟨c, t ++ ['\\'], rfl, hc⟩)
    refine ⟨?_, i2⟩
    rw [i1, sl_sep hs]
    conv => rhs; rw [PBat.canonLoop.eq_def]
    simp only [beq_self_eq_true, if_true]
    have hu : ¬ isUp (swallow r) = true := hu
    rw [swallow_sl, isUp_sl, if_neg hu, if_neg, sl_append]
    · rfl
    · rintro ⟨e, -⟩
      refine he ⟨(swallow_nil_iff r).1 e, ?_⟩
      obtain ⟨c, t, rfl, hc⟩ := h2
      simp
  | case6 pre c r hs ih =>
    have hs : sep c = false := by simpa using hs
    have hc := sep_false hs
    obtain ⟨i1, i2⟩ := ih (by simp [h1, Ne.symm hc.1]) (by obtain ⟨c', t, rfl, hc'⟩ := h2; exact ⟨c', t ++ [c], rfl, hc'⟩)
    refine ⟨?_, i2⟩
    rw [i1, sl_other hs]
    conv => rhs; rw [PBat.canonLoop.eq_def]
    have hcf : (c == '/') = false := by simpa using hc.1
    simp only [hcf, Bool.false_eq_true, if_false]
    rw [sl_append, sl_other hs]
    rfl

/-- Canonicalisation of a path after a drive. -/
theorem canonLoop_drive (d : List Char) (hd : d ≠ []) (hds : '/' ∉ d) (st : List (List Char)) (hst : ∀ c ∈ st, Name c) (r : List Char) :
    PBat.canonLoop (d ++ pathOf st.reverse) ('/' :: r) =
      if Climbs st (parts r) then d else d ++ pathOf (walkDirs st (parts r)).reverse := by
  induction hn : r.length using Nat.strongRecOn generalizing r st with
  | ind n ih =>
    subst hn
    obtain ⟨s1, s2, s3, s4, s5, s6⟩ := swallow_spec r
    simp only [← s1, ← s2]
    have hlen := PBat.swallow_length r
    rw [PBat.canonLoop.eq_def]
    simp only [beq_self_eq_true, if_true]
    generalize PBat.swallow r = r' at *
    obtain ⟨w, t, hw1, hw2, hw3⟩ := word_split r'
    by_cases hup : PBat.isUp r' = true
    · rw [if_pos hup]
      obtain ⟨t, rfl, ht⟩ := (isUp_iff r').1 hup
      simp only [List.drop_succ_cons, List.drop_zero]
      have hparts : parts ('.' :: '.' :: t) = ['.', '.'] :: (match t with | [] => [] | _ :: t' => parts t') := by
        rcases ht with rfl | ⟨r2, rfl⟩
        · exact parts_word (w := ['.', '.']) (by decide)
        · exact parts_append (w := ['.', '.']) (by decide) r2
      cases st with
      | nil =>
        have hcl : Climbs [] (parts ('.' :: '.' :: t)) := by
          rw [hparts]
          unfold Climbs
          rw [if_neg (by decide), if_pos rfl]; exact .inl rfl
        have e : d ++ pathOf ([] : List (List Char)).reverse = d := by simp [pathOf]
        rw [e, if_neg hds, if_neg hd, if_pos hcl]
      | cons c st =>
        have hc := hst c (by simp)
        have hpre : d ++ pathOf (c :: st).reverse = (d ++ pathOf st.reverse) ++ '/' :: c := by
          rw [List.reverse_cons, pathOf_append]; simp [pathOf]
        rw [hpre, if_pos (by simp), beforeLast_path hc.2.2.2]
        have hcl : ∀ X, Climbs (c :: st) (['.', '.'] :: X) ↔ Climbs st X := by
          intro X
          conv => lhs; unfold Climbs
          rw [if_neg (by decide), if_pos rfl]
          simp
        have hwk : ∀ X, walkDirs (c :: st) (['.', '.'] :: X) = walkDirs st X := by
          intro X
          conv => lhs; unfold walkDirs
          rw [if_neg (by decide), if_pos rfl]; rfl
        rcases ht with rfl | ⟨r2, rfl⟩
        · simp only at hparts
          rw [PBat.canonLoop.eq_def]
          simp only
          rw [hparts, hwk, if_neg (fun h => by rw [hcl] at h; exact h)]
          simp only [walkDirs]
        · simp only at hparts
          rw [ih r2.length (by simp at hlen; omega) st (fun x hx => hst x (by simp [hx])) r2 rfl]
          rw [hparts, hwk]
          simp only [hcl]
    · rw [if_neg hup]
      by_cases he : r' = []
      · subst he
        have hp : parts [] = [[]] := rfl
        have hwk : walkDirs st (parts []) = st := by rw [hp, walk_skip (.inl rfl)]; rfl
        have hcl : ¬ Climbs st (parts []) := by rw [hp, climbs_skip (.inl rfl)]; exact id
        rw [if_neg hcl, hwk, if_pos ⟨rfl, by simp [hd]⟩]
      · rw [if_neg (fun h => he h.1)]
        have hname : Name w := by
          refine ⟨?_, ?_, ?_, hw2⟩
          · rintro rfl
            rcases hw3 with rfl | ⟨r2, rfl⟩
            · exact he hw1
            · exact s4 r2 hw1
          · rintro rfl
            rcases hw3 with rfl | ⟨r2, rfl⟩
            · exact s6 hw1
            · exact s5 r2 hw1
          · rintro rfl
            apply hup
            rw [isUp_iff]
            exact ⟨t, hw1, hw3⟩
        have hcl : ∀ X, Climbs st (w :: X) ↔ Climbs (w :: st) X := by
          intro X
          conv => lhs; unfold Climbs
          rw [if_neg (by rintro (h | h); exact hname.1 h; exact hname.2.1 h), if_neg hname.2.2.1]
        have hwk : ∀ X, walkDirs st (w :: X) = walkDirs (w :: st) X := by
          intro X
          conv => lhs; unfold walkDirs
          rw [if_neg (by rintro (h | h); exact hname.1 h; exact hname.2.1 h), if_neg hname.2.2.1]
        have hpre : d ++ pathOf st.reverse ++ ['/'] ++ w = d ++ pathOf (w :: st).reverse := by
          rw [List.reverse_cons, pathOf_append]; simp [pathOf]
        rw [hw1, canonLoop_word hw2, hpre]
        rcases hw3 with rfl | ⟨r2, rfl⟩
        · rw [PBat.canonLoop.eq_def]
          simp only
          rw [List.append_nil, parts_word hw2, hwk, if_neg (by rw [hcl]; exact id)]
          simp [walkDirs]
        · have hl2 : r2.length < r.length := by
            have := congrArg List.length hw1
            simp at this; omega
          rw [ih r2.length hl2 (w :: st) (fun x hx => by
            rcases List.mem_cons.1 hx with rfl | hx
            · exact hname
            · exact hst x hx) r2 rfl]
          rw [parts_append hw2, hwk]
          simp only [hcl]

open Spec.Win

/-- The text with `\` for every separator. -/
def bk (p : List Char) : List Char := p.map fun c => if c = '/' then '\\' else c

theorem bk_sl {p : List Char} (h : '/' ∉ p) : bk (sl p) = p := by
  induction p with
  | nil => rfl
  | cons c p ih =>
    have hc : c ≠ '/' := by rintro rfl; exact h (by simp)
    have := ih fun hx => h (by simp [hx])
    simp only [bk, sl, List.map_cons, List.map_map] at *
    rw [this]
    by_cases e : c = '\\' <;> simp [e, hc]

theorem bk_path {d : List Char} (hd : '/' ∉ d) {names : List (List Char)} (h : ∀ c ∈ names, '/' ∉ c) :
    bk (d ++ pathOf names) = d ++ names.flatMap ('\\' :: ·) := by
  have hw : ∀ w : List Char, '/' ∉ w → bk w = w := by
    intro w hw
    unfold bk
    rw [List.map_congr_left (g := id), List.map_id]
    intro c hc
    rw [if_neg (by rintro rfl; exact hw hc)]; rfl
  have happ : ∀ a b, bk (a ++ b) = bk a ++ bk b := by simp [bk]
  rw [happ, hw d hd]
  congr 1
  induction names with
  | nil => rfl
  | cons c names ih =>
    have : pathOf (c :: names) = '/' :: (c ++ pathOf names) := by simp [pathOf]
    rw [this, List.flatMap_cons]
    have e : bk ('/' :: (c ++ pathOf names)) = '\\' :: bk (c ++ pathOf names) := rfl
    rw [e, happ, hw c (h c (by simp)), ih fun x hx => h x (by simp [hx])]
    rfl

theorem parts_noslash (s : List Char) : ∀ c ∈ parts s, '/' ∉ c := by
  induction s with
  | nil => simp [parts]
  | cons x s ih =>
    unfold parts
    split
    · intro c hc
      rcases List.mem_cons.1 hc with rfl | hc
      · simp
      · exact ih c hc
    · rename_i hx
      split
      · rename_i h; exact absurd h (parts_ne s)
      · rename_i p ps h
        rw [h] at ih
        intro c hc
        rcases List.mem_cons.1 hc with rfl | hc
        · intro hm
          rcases List.mem_cons.1 hm with e | e
          · exact hx e.symm
          · exact ih p (by simp) e
        · exact ih c (by simp [hc])

theorem parts_mem (s : List Char) : ∀ c ∈ parts s, ∀ x ∈ c, x ∈ s := by
  induction s with
  | nil => simp [parts]
  | cons y s ih =>
    unfold parts
    split
    · intro c hc x hx
      rcases List.mem_cons.1 hc with rfl | hc
      · simp at hx
      · exact List.mem_cons_of_mem _ (ih c hc x hx)
    · split
      · rename_i h; exact absurd h (parts_ne s)
      · rename_i p ps h
        rw [h] at ih
        intro c hc x hx
        rcases List.mem_cons.1 hc with rfl | hc
        · rcases List.mem_cons.1 hx with e | e
          · rw [e]; simp
          · exact List.mem_cons_of_mem _ (ih p (by simp) x e)
        · exact List.mem_cons_of_mem _ (ih c (by simp [hc]) x hx)

theorem walk_namesW (cs : List (List Char)) (hcs : ∀ c ∈ cs, '/' ∉ c ∧ '\\' ∉ c) (st : List (List Char)) (hst : ∀ c ∈ st, NameW c) :
    ∀ c ∈ walkDirs st cs, NameW c := by
  induction cs generalizing st with
  | nil => exact hst
  | cons x cs ih =>
    have hcs' := fun c hc => hcs c (List.mem_cons_of_mem _ hc)
    unfold walkDirs
    split
    · exact ih hcs' st hst
    · rename_i h1
      split
      · exact ih hcs' _ fun c hc => hst c (List.mem_of_mem_tail hc)
      · rename_i h2
        apply ih hcs'
        intro c hc
        rcases List.mem_cons.1 hc with rfl | hc
        · have := hcs c (by simp)
          exact ⟨⟨fun e => h1 (.inl e), fun e => h1 (.inr e), h2, this.1⟩, this.2⟩
        · exact hst c hc

theorem comps_clean (p : List Char) : ∀ c ∈ comps p, '/' ∉ c ∧ '\\' ∉ c := by
  intro c hc
  refine ⟨parts_noslash _ c hc, fun hx => ?_⟩
  have := parts_mem _ c hc _ hx
  simp only [List.mem_map] at this
  obtain ⟨a, -, e⟩ := this
  split at e
  · exact absurd e (by decide)
  · rename_i h; exact h e

theorem sl_flat {names : List (List Char)} (hn : ∀ c ∈ names, NameW c) : sl (names.flatMap ('\\' :: ·)) = pathOf names := by
  induction names with
  | nil => rfl
  | cons a names ih =>
    have ha := hn a (by simp)
    have hsl : sl a = a := by
      unfold sl
      rw [List.map_congr_left (g := id), List.map_id]
      intro x hx
      rw [if_neg (by rintro rfl; exact ha.2 hx)]; rfl
    rw [List.flatMap_cons, sl_append, sl_sep (by decide), hsl, ih fun x hx => hn x (by simp [hx])]
    simp [pathOf]

/-- Canonicalisation of a path with a drive: walking from the directory `st` along `r`. -/
theorem canonicalize_drive {d : Char} (hd : d ≠ '/' ∧ d ≠ '\\') (names : List (List Char)) (hn : ∀ c ∈ names, NameW c)
    {c : Char} (hc : sep c = true) (r : List Char) :
    canonicalize (dirText d names ++ c :: r) =
      if Climbs names.reverse (comps r) then [d, ':'] else dirText d (walkDirs names.reverse (comps r)).reverse := by
  have hu : unc (dirText d names ++ c :: r) = false := by
    simp only [dirText, List.cons_append]
    unfold unc
    split
    · rename_i h; injection h with h _; exact absurd h hd.2
    · rfl
  have hpath := sl_flat hn
  have hloop : canonLoop [] (dirText d names ++ c :: r) = canonLoop [d] (':' :: (names.flatMap ('\\' :: ·) ++ c :: r)) := by
    rw [dirText, List.cons_append, canonLoop.eq_def]
    simp [sep, hd]
  have hloop2 : canonLoop [d] (':' :: (names.flatMap ('\\' :: ·) ++ c :: r)) = canonLoop [d, ':'] (names.flatMap ('\\' :: ·) ++ c :: r) := by
    rw [canonLoop.eq_def]
    simp [sep]
  unfold canonicalize
  rw [hu, if_neg (by simp), hloop, hloop2]
  have hds : '/' ∉ [d, ':'] := by simp [hd.1.symm]
  obtain ⟨e1, e2⟩ := canonLoop_sl [d, ':'] (names.flatMap ('\\' :: ·) ++ c :: r) hds ⟨d, [':'], rfl, hd.2⟩
  rw [← bk_sl e2, e1]
  have hsd : sl [d, ':'] = [d, ':'] := by simp [sl, hd.2]
  have key : PBat.canonLoop [d, ':'] (pathOf names ++ '/' :: sl r) = 
      if Climbs names.reverse (comps r) then [d, ':'] else [d, ':'] ++ pathOf (walkDirs names.reverse (comps r)).reverse := by
    have hname : ∀ c ∈ names, Name c := fun c hc => (hn c hc).1
    cases hnn : names with
    | nil =>
      have := canonLoop_drive [d, ':'] (by simp) hds [] (by simp) (sl r)
      have e0 : [d, ':'] ++ pathOf ([] : List (List Char)).reverse = [d, ':'] := by simp [pathOf]
      rw [e0] at this
      exact this
    | cons a l =>
      obtain ⟨q, e, hw⟩ := walk_path names hname (by rw [hnn]; simp)
      rw [← hnn, e, List.cons_append]
      have := canonLoop_drive [d, ':'] (by simp) hds [] (by simp) (q ++ '/' :: sl r)
      have e0 : [d, ':'] ++ pathOf ([] : List (List Char)).reverse = [d, ':'] := by simp [pathOf]
      rw [e0, parts_join] at this
      rw [this, walk_append, (hw []).1]
      have hcl : Climbs [] (parts q ++ parts (sl r)) ↔ Climbs names.reverse (comps r) := by
        rw [climbs_append, (hw []).1]
        simp only [(hw []).2, false_or, List.append_nil]
        rfl
      simp only [hcl, List.append_nil]
      rfl
  rw [hsd, sl_append, hpath, sl_sep hc, key]
  split
  · have := bk_path hds (names := []) (by simp)
    simpa [pathOf] using this
  · rw [bk_path hds]
    · rfl
    · intro x hx
      have := walk_namesW (comps r) (comps_clean r) names.reverse (fun c hc => hn c (by simpa using hc)) x (by simpa using hx)
      exact this.1.2.2.2

theorem comps_join (a : List Char) {c : Char} (hc : sep c = true) (b : List Char) : comps (a ++ c :: b) = comps a ++ comps b := by
  have : comps (a ++ c :: b) = parts (sl (a ++ c :: b)) := rfl
  rw [this, sl_append, sl_sep hc, parts_join]
  rfl

theorem walk_flat {names : List (List Char)} (hn : ∀ c ∈ names, NameW c) :
    walkDirs [] (comps (names.flatMap ('\\' :: ·))) = names.reverse := by
  have : comps (names.flatMap ('\\' :: ·)) = parts (sl (names.flatMap ('\\' :: ·))) := rfl
  rw [this, sl_flat hn]
  cases hnn : names with
  | nil => rfl
  | cons a l =>
    obtain ⟨q, e, hw⟩ := walk_path names (fun c hc => (hn c hc).1) (by rw [hnn]; simp)
    rw [← hnn, e]
    have : parts ('/' :: q) = [] :: parts q := by simp [parts]
    rw [this, walk_skip (.inl rfl), (hw []).1]; simp

theorem place_dirText (d : Char) {names : List (List Char)} (hn : ∀ c ∈ names, NameW c) : placeOf (dirText d names) = names.reverse :=
  walk_flat hn

/-- Walking without going above the starting place. -/
theorem walk_base (cs st base : List (List Char)) (h : ¬ Climbs st cs) : walkDirs (st ++ base) cs = walkDirs st cs ++ base := by
  induction cs generalizing st with
  | nil => rfl
  | cons c cs ih =>
    unfold Climbs at h
    simp only [walkDirs]
    split
    · rename_i hc; rw [if_pos hc] at h; exact ih st h
    · rename_i hc
      rw [if_neg hc] at h
      split
      · rename_i hu
        rw [if_pos hu] at h
        cases st with
        | nil => exact absurd (.inl rfl) h
        | cons x st => exact ih st fun e => h (.inr e)
      · rename_i hu
        rw [if_neg hu] at h
        exact ih (c :: st) h

theorem canonLoop_length (pre post : List Char) : (canonLoop pre post).length ≤ pre.length + post.length := by
  fun_induction canonLoop pre post with
  | case1 => simp
  | case2 pre c r hs r' hu hm ih =>
    have h1 := (beforeLast_prefix '\\' pre).length_le
    have h2 := swallow_length r
    have h3 : (r'.drop 2).length ≤ (swallow r).length := by simp [r']
    simp at *; omega
  | case3 => simp
  | case4 => simp
  | case5 pre c r hs r' hu he ih =>
    have h2 : r'.length ≤ r.length := swallow_length r
    simp at *; omega
  | case6 pre c r hs ih => simp at *; omega

theorem canonicalize_length (p : List Char) : (canonicalize p).length ≤ p.length := by
  unfold canonicalize
  split
  · refine Nat.le_trans (canonLoop_length _ _) ?_
    have := (List.takeWhile_prefix (l := p.drop 2) (! sep ·)).length_le
    simp at *; omega
  · simpa using canonLoop_length [] p

theorem setCurrentDir_length {cap : Nat} {dirExists : List Char → Bool} {cur line d : List Char}
    (h : setCurrentDir cap dirExists cur line = some d) : d.length ≤ cur.length + line.length + 1 := by
  unfold setCurrentDir at h
  split at h
  · split at h
    · split at h
      · cases h; have := canonicalize_length cur; omega
      · cases h; refine Nat.le_trans (canonicalize_length _) ?_; simp; omega
    · cases h; refine Nat.le_trans (canonicalize_length _) ?_; simp; omega
  · split at h
    · simp only at h
      split at h
      · cases h; refine Nat.le_trans (canonicalize_length _) ?_; simp; omega
      · cases h
    · cases h

theorem alpha_ascii {d : Char} (h : d.isAlpha = true) : d.toNat < 128 := by
  simp only [Char.isAlpha, Char.isUpper, Char.isLower, Bool.or_eq_true, Bool.and_eq_true, decide_eq_true_eq] at h
  have : d.toNat = d.val.toNat := rfl
  rw [this]
  rcases h with ⟨-, h⟩ | ⟨-, h⟩
  · have := UInt32.le_iff_toNat_le.1 h; simp at this; omega
  · have := UInt32.le_iff_toNat_le.1 h; simp at this; omega

theorem alpha_case {d : Char} (h : d.isAlpha = true) : d.toLower.toUpper = d.toUpper ∧ d.toUpper.toLower = d.toLower ∧
    d ≠ '/' ∧ d ≠ '\\' ∧ d ≠ '"' ∧ sep d = false := by
  have key : ∀ n < 128, (Char.ofNat n).isAlpha = true → (Char.ofNat n).toLower.toUpper = (Char.ofNat n).toUpper ∧
      (Char.ofNat n).toUpper.toLower = (Char.ofNat n).toLower ∧ Char.ofNat n ≠ '/' ∧ Char.ofNat n ≠ '\\' ∧ Char.ofNat n ≠ '"' ∧
      sep (Char.ofNat n) = false := by decide
  have := key d.toNat (alpha_ascii h)
  rw [Char.ofNat_toNat] at this
  exact this h

theorem same_drive {a b : Char} (ha : a.isAlpha = true) (hb : b.isAlpha = true) : a.toUpper = b.toUpper ↔ a.toLower = b.toLower := by
  constructor
  · intro e; rw [← (alpha_case ha).2.1, ← (alpha_case hb).2.1, e]
  · intro e; rw [← (alpha_case ha).1, ← (alpha_case hb).1, e]

end PBat.Win
