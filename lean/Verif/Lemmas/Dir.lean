import Verif.Model.Dir
import Verif.Spec.Dir
/-
Helper lemmas for paths.
-/
namespace PBat
open Spec

theorem parts_ne (s : List Char) : parts s ≠ [] := by
  cases s with
  | nil => simp [parts]
  | cons c r => simp only [parts]; split; simp; split <;> simp

theorem parts_word {w : List Char} (h : '/' ∉ w) : parts w = [w] := by
  induction w with
  | nil => rfl
  | cons c w ih =>
    have hc : c ≠ '/' := by rintro rfl; exact h (by simp)
    simp only [parts, if_neg hc, ih fun hx => h (by simp [hx])]

theorem parts_append {w : List Char} (h : '/' ∉ w) (r : List Char) : parts (w ++ '/' :: r) = w :: parts r := by
  induction w with
  | nil => simp [parts]
  | cons c w ih =>
    have hc : c ≠ '/' := by rintro rfl; exact h (by simp)
    simp only [List.cons_append, parts, if_neg hc, ih fun hx => h (by simp [hx])]

theorem walk_skip {st cs} {c : List Char} (h : c = [] ∨ c = ['.']) : walkDirs st (c :: cs) = walkDirs st cs := by
  simp only [walkDirs, if_pos h]

theorem climbs_skip {st cs} {c : List Char} (h : c = [] ∨ c = ['.']) : Climbs st (c :: cs) ↔ Climbs st cs := by
  simp only [Climbs, if_pos h]

/-- What swallowing leaves designates the same place. -/
theorem swallow_spec (r : List Char) :
    (∀ st, walkDirs st (parts (swallow r)) = walkDirs st (parts r)) ∧ (∀ st, Climbs st (parts (swallow r)) ↔ Climbs st (parts r)) ∧
    ((parts (swallow r)).getLast? = some ['.', '.'] ↔ (parts r).getLast? = some ['.', '.']) ∧
    (∀ t, swallow r ≠ '/' :: t) ∧ (∀ t, swallow r ≠ '.' :: '/' :: t) ∧ swallow r ≠ ['.'] := by
  fun_induction swallow r with
  | case1 r ih =>
    obtain ⟨h1, h2, h3, h4⟩ := ih
    have hp : parts ('/' :: r) = [] :: parts r := by simp [parts]
    refine ⟨fun st => ?_, fun st => ?_, ?_, h4⟩
    · rw [hp, walk_skip (.inl rfl), h1]
    · rw [hp, climbs_skip (.inl rfl), h2]
    · rw [hp, h3, List.getLast?_cons]
      cases hh : (parts r).getLast? with
      | none => exact absurd (List.getLast?_eq_none_iff.1 hh) (parts_ne r)
      | some x => simp
  | case2 r ih =>
    obtain ⟨h1, h2, h3, h4⟩ := ih
    have hp : parts ('.' :: '/' :: r) = ['.'] :: parts r := parts_append (w := ['.']) (by decide) r
    have hp' : parts ('/' :: r) = [] :: parts r := by simp [parts]
    refine ⟨fun st => ?_, fun st => ?_, ?_, h4⟩
    · rw [hp, walk_skip (.inr rfl), h1, hp', walk_skip (.inl rfl)]
    · rw [hp, climbs_skip (.inr rfl), h2, hp', climbs_skip (.inl rfl)]
    · rw [hp, h3, hp', List.getLast?_cons, List.getLast?_cons]
      cases hh : (parts r).getLast? with
      | none => exact absurd (List.getLast?_eq_none_iff.1 hh) (parts_ne r)
      | some x => simp
  | case3 =>
    refine ⟨fun st => ?_, fun st => ?_, by decide, by simp, by simp, by simp⟩
    · simp [parts, walkDirs]
    · simp [parts, Climbs]
  | case4 s h1 h2 h3 =>
    refine ⟨fun _ => rfl, fun _ => Iff.rfl, Iff.rfl, ?_, ?_, ?_⟩
    · intro t e; exact h1 t e
    · intro t e; exact h2 t e
    · exact h3

theorem canonLoop_word {w : List Char} (h : '/' ∉ w) (pre r : List Char) :
    canonLoop pre (w ++ r) = canonLoop (pre ++ w) r := by
  induction w generalizing pre with
  | nil => simp
  | cons c w ih =>
    have hc : (c == '/') = false := by
      simp only [beq_eq_false_iff_ne]; rintro rfl; exact h (by simp)
    rw [List.cons_append, canonLoop.eq_def]
    simp only [hc, Bool.false_eq_true, if_false]
    rw [ih (fun hx => h (by simp [hx]))]
    simp

theorem pathOf_append (a b : List (List Char)) : pathOf (a ++ b) = pathOf a ++ pathOf b := by
  simp [pathOf]

theorem beforeLast_path {u c : List Char} (h : '/' ∉ c) : beforeLast '/' (u ++ '/' :: c) = u := by
  unfold beforeLast
  rw [if_pos (by simp)]
  have : (u ++ '/' :: c).reverse = c.reverse ++ '/' :: u.reverse := by simp
  rw [this]
  have hdw : (c.reverse ++ '/' :: u.reverse).dropWhile (· != '/') = '/' :: u.reverse := by
    have hc : ∀ x ∈ c.reverse, (x != '/') = true := by
      intro x hx
      simp only [bne_iff_ne]; rintro rfl; exact h (by simpa using hx)
    generalize c.reverse = d at hc
    induction d with
    | nil => simp
    | cons x d ih =>
      rw [List.cons_append, List.dropWhile_cons, if_pos (hc x (by simp))]
      exact ih fun y hy => hc y (by simp [hy])
  rw [hdw]; simp

/-- A text begins with a word followed by nothing or a separator. -/
theorem word_split (s : List Char) : ∃ w t, s = w ++ t ∧ '/' ∉ w ∧ (t = [] ∨ ∃ r, t = '/' :: r) := by
  induction s with
  | nil => exact ⟨[], [], rfl, by simp, .inl rfl⟩
  | cons c s ih =>
    by_cases hc : c = '/'
    · exact ⟨[], c :: s, rfl, by simp, .inr ⟨s, by rw [hc]⟩⟩
    · obtain ⟨w, t, h1, h2, h3⟩ := ih
      refine ⟨c :: w, t, by rw [h1]; rfl, ?_, h3⟩
      intro hx
      rcases List.mem_cons.1 hx with h | h
      · exact hc h.symm
      · exact h2 h

theorem isUp_iff (s : List Char) : isUp s = true ↔ ∃ t, s = '.' :: '.' :: t ∧ (t = [] ∨ ∃ r, t = '/' :: r) := by
  unfold isUp
  split
  · simp
  · simp
  · rename_i h1 h2
    simp only [Bool.false_eq_true, false_iff]
    rintro ⟨t, rfl, rfl | ⟨r, rfl⟩⟩
    · exact h1 rfl
    · exact h2 r rfl

/-- What canonicalisation gives from the place `st`, the rest of the path being `/r`. -/
def canonResult (st : List (List Char)) (r : List Char) : List Char :=
  if Climbs st (parts r) then ['/']
  else if walkDirs st (parts r) = [] then (if (parts r).getLast? = some ['.', '.'] then [] else ['/'])
  else pathOf (walkDirs st (parts r)).reverse

theorem canonLoop_spec (st : List (List Char)) (hst : ∀ c ∈ st, Name c) (r : List Char) :
    canonLoop (pathOf st.reverse) ('/' :: r) = canonResult st r := by
  induction hn : r.length using Nat.strongRecOn generalizing r st with
  | ind n ih =>
    subst hn
    obtain ⟨s1, s2, s3, s4, s5, s6⟩ := swallow_spec r
    have hres : canonResult st r = canonResult st (swallow r) := by
      unfold canonResult
      simp only [s1, s2, s3]
    rw [hres]
    have hlen := swallow_length r
    rw [canonLoop.eq_def]
    simp only [beq_self_eq_true, if_true]
    generalize swallow r = r' at *
    obtain ⟨w, t, hw1, hw2, hw3⟩ := word_split r'
    by_cases hup : isUp r' = true
    · rw [if_pos hup]
      obtain ⟨t, rfl, ht⟩ := (isUp_iff r').1 hup
      simp only [List.drop_succ_cons, List.drop_zero]
      have hparts : parts ('.' :: '.' :: t) = ['.', '.'] :: (match t with | [] => [] | _ :: t' => parts t') := by
        rcases ht with rfl | ⟨r2, rfl⟩
        · exact parts_word (w := ['.', '.']) (by decide)
        · exact parts_append (w := ['.', '.']) (by decide) r2
      cases st with
      | nil =>
        have hcl : Climbs [] (parts ('.' :: '.' :: t)) := by
          rw [hparts]
          unfold Climbs
          rw [if_neg (by decide), if_pos rfl]; exact .inl rfl
        rw [if_neg (by simp [pathOf]), if_pos (by simp [pathOf])]
        unfold canonResult
        rw [if_pos hcl]
      | cons c st =>
        have hc := hst c (by simp)
        have hpre : pathOf (c :: st).reverse = pathOf st.reverse ++ '/' :: c := by
          rw [List.reverse_cons, pathOf_append]; simp [pathOf]
        rw [hpre, if_pos (by simp), beforeLast_path hc.2.2.2]
        have hcl : ∀ X, Climbs (c :: st) (['.', '.'] :: X) ↔ Climbs st X := by
          intro X
          conv => lhs; unfold Climbs
          rw [if_neg (by decide), if_pos rfl]
          simp
        have hwk : ∀ X, walkDirs (c :: st) (['.', '.'] :: X) = walkDirs st X := by
          intro X
          conv => lhs; unfold walkDirs
          rw [if_neg (by decide), if_pos rfl]; rfl
        rcases ht with rfl | ⟨r2, rfl⟩
        · simp only at hparts
          rw [canonLoop.eq_def]
          simp only
          unfold canonResult
          rw [hparts, hwk]
          rw [if_neg (fun h => by rw [hcl] at h; exact h)]
          simp only [walkDirs]
          by_cases he : st = []
          · subst he; simp [pathOf]
          · simp [he]
        · simp only at hparts
          rw [ih r2.length (by simp at hlen; omega) st (fun x hx => hst x (by simp [hx])) r2 rfl]
          unfold canonResult
          rw [hparts, hwk]
          simp only [hcl]
          rw [List.getLast?_cons]
          have : (parts r2).getLast?.getD ['.', '.'] = (parts r2).getLast (parts_ne r2) := by
            rw [List.getLast?_eq_some_getLast (parts_ne r2)]; rfl
          rw [this, List.getLast?_eq_some_getLast (parts_ne r2)]
    · rw [if_neg hup]
      by_cases he : r' = []
      · subst he
        have hp : parts [] = [[]] := rfl
        have hwk : walkDirs st (parts []) = st := by rw [hp, walk_skip (.inl rfl)]; rfl
        have hcl : ¬ Climbs st (parts []) := by rw [hp, climbs_skip (.inl rfl)]; exact id
        unfold canonResult
        rw [if_neg hcl, hwk]
        by_cases hs : st = []
        · subst hs
          rw [if_neg (by simp [pathOf]), canonLoop.eq_def]
          simp [pathOf, hp]
        · rw [if_neg hs, if_pos]
          refine ⟨rfl, ?_⟩
          cases st with
          | nil => exact absurd rfl hs
          | cons c st => simp [pathOf]
      · rw [if_neg (fun h => he h.1)]
        have hname : Name w := by
          refine ⟨?_, ?_, ?_, hw2⟩
          · rintro rfl
            rcases hw3 with rfl | ⟨r2, rfl⟩
            · exact he hw1
            · exact s4 r2 hw1
          · rintro rfl
            rcases hw3 with rfl | ⟨r2, rfl⟩
            · exact s6 hw1
            · exact s5 r2 hw1
          · rintro rfl
            apply hup
            rw [isUp_iff]
            exact ⟨t, hw1, hw3⟩
        have hcl : ∀ X, Climbs st (w :: X) ↔ Climbs (w :: st) X := by
          intro X
          conv => lhs; unfold Climbs
          rw [if_neg (by rintro (h | h); exact hname.1 h; exact hname.2.1 h), if_neg hname.2.2.1]
        have hwk : ∀ X, walkDirs st (w :: X) = walkDirs (w :: st) X := by
          intro X
          conv => lhs; unfold walkDirs
          rw [if_neg (by rintro (h | h); exact hname.1 h; exact hname.2.1 h), if_neg hname.2.2.1]
        have hpre : pathOf st.reverse ++ ['/'] ++ w = pathOf (w :: st).reverse := by
          rw [List.reverse_cons, pathOf_append]; simp [pathOf]
        rw [hw1, canonLoop_word hw2, hpre]
        rcases hw3 with rfl | ⟨r2, rfl⟩
        · rw [canonLoop.eq_def]
          simp only
          unfold canonResult
          rw [List.append_nil, parts_word hw2, hwk]
          rw [if_neg (by rw [hcl]; exact id)]
          simp [walkDirs]
        · have hl2 : r2.length < r.length := by
            have := congrArg List.length hw1
            simp at this; omega
          rw [ih r2.length hl2 (w :: st) (fun x hx => by
            rcases List.mem_cons.1 hx with rfl | hx
            · exact hname
            · exact hst x hx) r2 rfl]
          unfold canonResult
          rw [parts_append hw2, hwk]
          simp only [hcl]
          rw [List.getLast?_cons]
          have : (parts r2).getLast?.getD w = (parts r2).getLast (parts_ne r2) := by
            rw [List.getLast?_eq_some_getLast (parts_ne r2)]; rfl
          rw [this, List.getLast?_eq_some_getLast (parts_ne r2)]


theorem canonicalize_abs (r : List Char) : canonicalize ('/' :: r) = canonResult [] r :=
  canonLoop_spec [] (by simp) r

theorem beforeLast_length (q : Char) (s : List Char) : (beforeLast q s).length ≤ s.length := by
  unfold beforeLast
  split
  · have := (List.dropWhile_sublist (p := (· != q)) (l := s.reverse)).length_le
    simp only [List.length_reverse] at this
    simp only [List.length_reverse, List.length_drop]
    omega
  · exact Nat.le_refl _

theorem canonLoop_length (pre post : List Char) : (canonLoop pre post).length ≤ pre.length + post.length := by
  induction hn : post.length using Nat.strongRecOn generalizing pre post with
  | ind n ih =>
    subst hn
    rw [canonLoop.eq_def]
    split
    · simp
    · rename_i c r
      have hl := swallow_length r
      simp only
      split
      · split
        · split
          · have := ih ((swallow r).drop 2).length (by simp; omega) (beforeLast '/' pre) _ rfl
            have := beforeLast_length '/' pre
            simp only [List.length_drop, List.length_cons] at *
            omega
          · split
            · simp; omega
            · simp
        · split
          · simp
          · have := ih (swallow r).length (by simp; omega) (pre ++ ['/']) _ rfl
            simp only [List.length_append, List.length_cons, List.length_nil] at *
            omega
      · have := ih r.length (by simp) (pre ++ [c]) _ rfl
        simp only [List.length_append, List.length_cons, List.length_nil] at *
        omega

/-- Every name reached by a walk is proper. -/
theorem walk_names (r : List Char) (st : List (List Char)) (hst : ∀ c ∈ st, Name c) :
    ∀ c ∈ walkDirs st (parts r), Name c := by
  have hparts : ∀ (s : List Char), ∀ c ∈ parts s, '/' ∉ c := by
    intro s
    induction s with
    | nil => simp [parts]
    | cons d s ih =>
      simp only [parts]
      split
      · intro c hc
        rcases List.mem_cons.1 hc with rfl | hc
        · simp
        · exact ih c hc
      · rename_i hd
        split
        · intro c hc; simp only [List.mem_singleton] at hc; subst hc; simp; exact fun e => hd e.symm
        · rename_i p ps he
          rw [he] at ih
          intro c hc
          rcases List.mem_cons.1 hc with rfl | hc
          · intro hx
            rcases List.mem_cons.1 hx with e | hx
            · exact hd e.symm
            · exact ih p (by simp) hx
          · exact ih c (by simp [hc])
  have h := hparts r
  generalize parts r = cs at h
  induction cs generalizing st with
  | nil => simpa [walkDirs] using hst
  | cons c cs ih =>
    have ih' := fun st hst => ih st hst fun x hx => h x (by simp [hx])
    simp only [walkDirs]
    split
    · exact ih' st hst
    · rename_i h1
      split
      · exact ih' _ fun x hx => hst x (List.mem_of_mem_tail hx)
      · rename_i h2
        apply ih'
        intro x hx
        rcases List.mem_cons.1 hx with rfl | hx
        · exact ⟨fun e => h1 (.inl e), fun e => h1 (.inr e), h2, h x (by simp)⟩
        · exact hst x hx

theorem walk_path (l : List (List Char)) (hl : ∀ c ∈ l, Name c) (hne : l ≠ []) :
    ∃ r, pathOf l = '/' :: r ∧ ∀ st, walkDirs st (parts r) = l.reverse ++ st ∧ ¬ Climbs st (parts r) := by
  induction l with
  | nil => exact absurd rfl hne
  | cons c l ih =>
    have hc := hl c (by simp)
    have hstep : ∀ st X, walkDirs st (c :: X) = walkDirs (c :: st) X ∧ (Climbs st (c :: X) ↔ Climbs (c :: st) X) := by
      intro st X
      constructor
      · conv => lhs; unfold walkDirs
        rw [if_neg (by rintro (h | h); exact hc.1 h; exact hc.2.1 h), if_neg hc.2.2.1]
      · conv => lhs; unfold Climbs
        rw [if_neg (by rintro (h | h); exact hc.1 h; exact hc.2.1 h), if_neg hc.2.2.1]
    cases l with
    | nil =>
      refine ⟨c, by simp [pathOf], fun st => ?_⟩
      rw [parts_word hc.2.2.2, (hstep st []).1, (hstep st []).2]
      simp [walkDirs, Climbs]
    | cons c2 l =>
      obtain ⟨r, e, h⟩ := ih (fun x hx => hl x (by simp [hx])) (by simp)
      refine ⟨c ++ '/' :: r, ?_, fun st => ?_⟩
      · rw [← e]; simp [pathOf]
      · rw [parts_append hc.2.2.2, (hstep st _).1, (hstep st _).2, (h (c :: st)).1]
        exact ⟨by simp, (h (c :: st)).2⟩

/-- Canonical directories: the root, or a path of proper names. -/
def CanonDir (d : List Char) : Prop := d = ['/'] ∨ ∃ l, l ≠ [] ∧ (∀ c ∈ l, Name c) ∧ d = pathOf l

theorem canonicalize_canon {d : List Char} (h : CanonDir d) : canonicalize d = d := by
  rcases h with rfl | ⟨l, h1, h2, rfl⟩
  · decide +kernel
  · obtain ⟨r, e, hw⟩ := walk_path l h2 h1
    rw [e, canonicalize_abs]
    unfold canonResult
    rw [if_neg (hw []).2, (hw []).1, List.append_nil, if_neg (by simpa using h1), List.reverse_reverse, e]

theorem canonicalize_form (r : List Char) : canonicalize ('/' :: r) = [] ∨ CanonDir (canonicalize ('/' :: r)) := by
  rw [canonicalize_abs]
  unfold canonResult
  split
  · exact .inr (.inl rfl)
  · split
    · split
      · exact .inl rfl
      · exact .inr (.inl rfl)
    · rename_i h
      exact .inr (.inr ⟨_, by simpa using h, fun c hc => walk_names r [] (by simp) c (by simpa using hc), rfl⟩)

theorem canon_absolute {d : List Char} (h : CanonDir d) : absolute d = true := by
  rcases h with rfl | ⟨l, h1, h2, rfl⟩
  · decide
  · cases l with
    | nil => exact absurd rfl h1
    | cons c l =>
      have hc := h2 c (by simp)
      cases hcc : c with
      | nil => exact absurd hcc hc.1
      | cons x c =>
        have hx : x ≠ '/' := by rintro rfl; exact hc.2.2.2 (by rw [hcc]; simp)
        simp only [pathOf, List.flatMap_cons, List.cons_append]
        unfold absolute
        split
        · rename_i h; simp only [List.cons.injEq] at h; exact absurd h.2.1 hx
        · rfl
        · rename_i h; exact absurd rfl (h _)

theorem canon_head {d : List Char} (h : CanonDir d) : ∃ r, d = '/' :: r := by
  rcases h with rfl | ⟨l, h1, h2, rfl⟩
  · exact ⟨[], rfl⟩
  · obtain ⟨r, e, -⟩ := walk_path l h2 h1
    exact ⟨r, e⟩

end PBat
