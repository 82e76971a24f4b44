import Verif.Lemmas.ForOpts
import Verif.Props.C24
/-
C70: the options of FOR /F.
-/
namespace PBat
open Spec

theorem lastValue_cons {α : Type} (f : FOpt → Option α) (x : FOpt) (os : List FOpt) (d : α) :
    lastValue f (x :: os) d = lastValue f os ((f x).getD d) := by
  unfold lastValue
  rw [List.filterMap_cons]
  cases f x with
  | none => rfl
  | some v => simp only [Option.getD_some]; rw [List.getLast?_cons, Option.getD_some]

theorem steps_delims (os : List FOpt) : ∀ o : ForOpts, (os.foldl optStep o).delims = lastValue FOpt.delims? os o.delims := by
  induction os with
  | nil => intro o; rfl
  | cons x os ih => intro o; rw [List.foldl_cons, ih, lastValue_cons]; cases x <;> rfl

theorem steps_skip (os : List FOpt) : ∀ (o : ForOpts) (n : Nat), o.skip = n →
    (os.foldl optStep o).skip = (lastValue FOpt.skip? os n : Nat) := by
  induction os with
  | nil => intro o n h; exact h
  | cons x os ih =>
    intro o n h
    rw [List.foldl_cons, lastValue_cons]
    cases x with
    | skip m => exact ih _ m rfl
    | _ => exact ih _ n h

theorem steps_usebackq (os : List FOpt) : ∀ o : ForOpts, (os.foldl optStep o).usebackq = (o.usebackq || decide (.usebackq ∈ os)) := by
  induction os with
  | nil => intro o; simp
  | cons x os ih =>
    intro o
    rw [List.foldl_cons, ih]
    cases x <;> simp [optStep]

/-- The comment characters after delimiters. -/
def eolBase (e : List Char) (semi : Bool) : List Char := if e = [';'] ∧ semi = true then [] else e

theorem steps_eol (os : List FOpt) (h : FOpt.eol [';'] ∉ os ∨ ∀ d ∈ os.filterMap FOpt.delims?, ';' ∉ d) : ∀ o : ForOpts,
    (os.foldl optStep o).eol =
      lastValue FOpt.eol? os (eolBase o.eol ((os.filterMap FOpt.delims?).any (·.contains ';'))) := by
  induction os with
  | nil => intro o; simp [lastValue, eolBase]
  | cons x os ih =>
    intro o
    have h' : FOpt.eol [';'] ∉ os ∨ ∀ d ∈ os.filterMap FOpt.delims?, ';' ∉ d := by
      rcases h with h | h
      · left; simp only [List.mem_cons, not_or] at h; exact h.2
      · right
        intro d hd
        refine h d ?_
        rw [List.filterMap_cons]
        split
        · exact hd
        · simp [hd]
    rw [List.foldl_cons, ih h', lastValue_cons]
    cases x with
    | delims d =>
      simp only [FOpt.eol?, Option.getD_none, optStep, List.filterMap_cons, FOpt.delims?, List.any_cons]
      congr 1
      generalize ((os.filterMap FOpt.delims?).any (·.contains ';')) = r
      unfold eolBase
      by_cases h1 : o.eol = [';']
      · rw [h1]
        cases d.contains ';' <;> cases r <;> decide
      · simp [h1]
    | eol e =>
      simp only [FOpt.eol?, Option.getD_some, optStep]
      congr 1
      unfold eolBase
      rw [if_neg]
      rintro ⟨he, hd⟩
      subst he
      obtain ⟨d, hd, hs⟩ := List.any_eq_true.1 hd
      rcases h with h | h
      · simp at h
      · exact h d (by rw [List.filterMap_cons]; exact hd) (by simpa using hs)
    | _ => rfl

theorem steps_no_tokens (os : List FOpt) : ∀ (o : ForOpts), os.filterMap FOpt.tokens? = [] →
    (os.foldl optStep o).table = o.table ∧ (os.foldl optStep o).count = o.count := by
  induction os with
  | nil => intro o _; exact ⟨rfl, rfl⟩
  | cons x os ih =>
    intro o h
    rw [List.foldl_cons]
    cases x with
    | tokens its => simp [List.filterMap_cons, FOpt.tokens?] at h
    | _ => exact ih _ (by simpa [List.filterMap_cons, FOpt.tokens?] using h)

theorem steps_tokens (os : List FOpt) (its : List TokItem) : ∀ (o : ForOpts), os.filterMap FOpt.tokens? = [its] →
    (os.foldl optStep o).table = orWords o.table 0 (((select (some 0) its).getD []).map selWord) ∧
    (os.foldl optStep o).count = ((select (some 0) its).getD []).length := by
  induction os with
  | nil => intro o h; simp at h
  | cons x os ih =>
    intro o h
    rw [List.foldl_cons]
    cases x with
    | tokens its' =>
      simp only [List.filterMap_cons, FOpt.tokens?, List.cons.injEq] at h
      obtain ⟨rfl, h⟩ := h
      exact steps_no_tokens os _ h
    | _ => exact ih _ (by simpa [List.filterMap_cons, FOpt.tokens?] using h)

/-- The selections of the options: those of the `tokens=` option, the first token without one. -/
def Selected (os : List FOpt) (sels : List Selection) : Prop :=
  (os.filterMap FOpt.tokens? = [] ∧ sels = [(1, some 1)]) ∨ ∃ its, os.filterMap FOpt.tokens? = [its] ∧ select (some 0) its = some sels

/-- Options written in any order, in any case, in one or more parameters are read as written: the delimiters, the comment
characters and the number of lines to skip are the last ones given or the defaults, and the tokens are those listed. -/
theorem C70_options_partial (os : List FOpt) (ps : List (List Char)) (h : OptParams os ps) (hfit : ∀ x ∈ os, Fits x)
    (heol : FOpt.eol [';'] ∉ os ∨ ∀ d ∈ os.filterMap FOpt.delims?, ';' ∉ d) (sels : List Selection) (hsel : Selected os sels)
    (hodd : ∀ n e, sels.head? = some (n, e) → n % 2 = 1 ∧ ∀ m, e = some m → m % 2 = 1) :
    ∃ o, forAllOptions forDefaults ps = .ok (some o) ∧ o.delims = lastValue FOpt.delims? os [' ', '\t'] ∧ o.eol = eolValue os ∧
      o.skip = (lastValue FOpt.skip? os 0 : Nat) ∧ (o.usebackq = true ↔ FOpt.usebackq ∈ os) ∧
      o.table.take o.count = sels.map selWord := by
  refine ⟨_, allOptions_steps h hfit forDefaults, steps_delims os _, ?_, steps_skip os _ 0 rfl, ?_, ?_⟩
  · rw [steps_eol os heol]
    unfold eolValue
    congr 1
    unfold eolBase
    simp [forDefaults]
  · rw [steps_usebackq]
    simp [forDefaults]
  · rcases hsel with ⟨h1, rfl⟩ | ⟨its, h1, h2⟩
    · obtain ⟨e1, e2⟩ := steps_no_tokens os forDefaults h1
      rw [e1, e2]
      decide
    · obtain ⟨e1, e2⟩ := steps_tokens os its forDefaults h1
      rw [e1, e2, h2]
      simp only [Option.getD_some]
      have hm : FOpt.tokens its ∈ os := by
        have : its ∈ os.filterMap FOpt.tokens? := by rw [h1]; simp
        obtain ⟨x, hx, hxi⟩ := List.mem_filterMap.1 this
        cases x <;> simp [FOpt.tokens?] at hxi
        subst hxi
        exact hx
      obtain ⟨-, sels', h3, hok, hlen⟩ := hfit _ hm
      rw [h2] at h3
      simp only [Option.some.injEq] at h3
      subst h3
      cases sels with
      | nil => rfl
      | cons s ss =>
        obtain ⟨n, e⟩ := s
        have ht : forDefaults.table = tokInit := rfl
        rw [ht, List.map_cons, List.length_cons, ← List.length_map (f := selWord), orWords_init _ _ (by simpa using hlen)]
        have ho := hodd n e rfl
        have hk := hok (n, e) (by simp)
        have hm : e.getD 65535 < 2 ^ 16 ∧ e.getD 65535 % 2 = 1 := by
          cases e with
          | none => decide
          | some m => exact ⟨hk.2 m rfl, ho.2 m rfl⟩
        have := or_word (n := n) hm.1
        rw [or_one, or_one, if_pos ho.1, if_pos hm.2] at this
        show (65537 ||| tokenWord n (e.getD 65535)) :: _ = _
        rw [this]
        rfl

/-- So, for every line, the loop variables receive the tokens listed, found with the delimiters given. -/
theorem C70_variables_partial (os : List FOpt) (ps : List (List Char)) (h : OptParams os ps) (hfit : ∀ x ∈ os, Fits x)
    (heol : FOpt.eol [';'] ∉ os ∨ ∀ d ∈ os.filterMap FOpt.delims?, ';' ∉ d) (sels : List Selection) (hsel : Selected os sels)
    (hodd : ∀ n e, sels.head? = some (n, e) → n % 2 = 1 ∧ ∀ m, e = some m → m % 2 = 1)
    (line : List Char) (hline : (fields (lastValue FOpt.delims? os [' ', '\t']) line).length < 65535) (c : Char)
    (hc : 0x20 < c.toNat) (hc2 : c.toNat + sels.length ≤ 0x80) (b : LocalBlock) :
    ∃ o, forAllOptions forDefaults ps = .ok (some o) ∧
      (∀ (i : Nat) (s : Selection), sels[i]? = some s → ∃ text, Selects (lastValue FOpt.delims? os [' ', '\t']) line s text ∧
        forSplitTokens o.delims line (o.table.take o.count) c b (Char.ofNat (c.toNat + i)) = some text) ∧
      (∀ d : Char, d.toNat < c.toNat ∨ c.toNat + sels.length ≤ d.toNat →
        forSplitTokens o.delims line (o.table.take o.count) c b d = b d) := by
  obtain ⟨o, h1, h2, -, -, -, h3⟩ := C70_options_partial os ps h hfit heol sels hsel hodd
  have hb : ∀ s ∈ sels, 1 ≤ s.1 ∧ SelOk s ∧ ∀ m, s.2 = some m → s.1 ≤ m := by
    rcases hsel with ⟨-, rfl⟩ | ⟨its, e1, e2⟩
    · simp [SelOk]
    · intro s hs
      have hm : FOpt.tokens its ∈ os := by
        have : its ∈ os.filterMap FOpt.tokens? := by rw [e1]; simp
        obtain ⟨x, hx, hxi⟩ := List.mem_filterMap.1 this
        cases x <;> simp [FOpt.tokens?] at hxi
        subst hxi
        exact hx
      obtain ⟨hits, sels', e3, hok, -⟩ := hfit _ hm
      rw [e2] at e3
      simp only [Option.some.injEq] at e3
      subst e3
      have := select_bounds its _ sels hits e2 s hs
      exact ⟨this.1, hok s hs, this.2⟩
  refine ⟨o, h1, ?_, ?_⟩
  · intro i s hs
    have hb := hb s (List.mem_of_getElem? hs)
    rw [h2, h3]
    refine ⟨_, selWord_selects _ line hline s hb.1 hb.2.1 hb.2.2, ?_⟩
    exact (forSplitTokens_vars _ line (sels.map selWord) c b hc (by simpa using hc2)).1 i _ (by simp [hs])
  · intro d hd
    rw [h3]
    exact (forSplitTokens_vars _ line (sels.map selWord) c b hc (by simpa using hc2)).2 d (by simpa using hd)

/-- A text that does not begin with an option is refused. -/
theorem C70_refused (o : ForOpts) (s : List Char) (hs : s ≠ []) (h : ¬ OptHead s) : forMakeInfo o s = .ok none := by
  rw [← isSpecifier_head] at h
  have h' : forIsSpecifier s = none := by simpa using h
  have e : forGetSpecifier s = some (none, (nextSpace s).getD (s, [])) := by
    unfold forGetSpecifier
    rw [if_neg hs, h']
  rw [forMakeInfo]
  split
  · next h => rw [e] at h; simp at h
  · rfl
  · next h => rw [e] at h; simp at h

/-- So is one that follows `usebackq`. -/
theorem C70_refused_after (o : ForOpts) (k s : List Char) (hk : fold k = ['u', 's', 'e', 'b', 'a', 'c', 'k', 'q']) (hs : s ≠ [])
    (hsp : s.head? ≠ some ' ') (h : ¬ OptHead s) : forMakeInfo o (k ++ ' ' :: s) = .ok none := by
  have hw : OptWritten .usebackq k [] := .usebackq hk (by simp)
  have hns := key_no_space (t := .usebackq) hk
  have hspec : forIsSpecifier (k ++ ' ' :: s) = some .usebackq :=
    (forIsSpecifier_iff _ _).2 ⟨k, ' ' :: s, rfl, hk, fun _ => .inr ⟨s, rfl⟩⟩
  have hn : nextSpace (k ++ ' ' :: s) = some (k, s) := by
    have := nextSpace_spaces (b := []) hns (by simp) hsp
    simpa using this
  have e : forGetSpecifier (k ++ ' ' :: s) = some (some .usebackq, k, s) := by
    unfold forGetSpecifier
    rw [if_neg (by simp), hspec]
    simp only
    rw [hn]
    rfl
  rw [forMakeInfo]
  split
  · next h' => rw [e] at h'; simp at h'
  · rfl
  · next t x r h' =>
    rw [e] at h'
    simp only [Option.some.injEq, Prod.mk.injEq] at h'
    obtain ⟨rfl, rfl, rfl⟩ := h'
    exact C70_refused _ _ hs h

/-- The claim fails for options that begin with a space, which are refused. -/
theorem C70_leading_space (o : ForOpts) (s : List Char) : forMakeInfo o (' ' :: s) = .ok none :=
  C70_refused o _ (by simp) optHead_space

/-- A misspelt option behind another one is not refused: it becomes part of the value before it. -/
theorem C70_swallowed (o : ForOpts) (d w : List Char) (hd : ' ' ∉ d) (hw : ' ' ∉ w) (hlen : d.length + w.length ≤ 4094)
    (h : ¬ OptHead w) : ∃ o', forMakeInfo o (['d', 'e', 'l', 'i', 'm', 's', '='] ++ (d ++ ' ' :: w)) = .ok (some o') ∧
      o'.delims = d ++ ' ' :: w := by
  have ht : OptsText [.delims (d ++ ' ' :: w)] (['d', 'e', 'l', 'i', 'm', 's', '='] ++ (d ++ ' ' :: w)) := by
    refine .last (.delims (by decide)) ?_
    intro p s he
    rw [List.append_nil]
    obtain ⟨p', hp⟩ := append_space_split hd he
    cases p' with
    | nil => simp only [List.nil_append, List.cons.injEq, true_and] at hp; rw [← hp]; exact h
    | cons c p' =>
      simp only [List.cons_append, List.cons.injEq] at hp
      exact absurd (by rw [hp.2]; simp) hw
  exact ⟨_, makeInfo_steps ht (by simp [Fits]; omega) o, rfl⟩

/-- `eol=;` is lost when the semicolon is made a delimiter afterwards, and kept in the other order. -/
theorem C70_eol_order (o : ForOpts) :
    (∃ a, forMakeInfo o ['e', 'o', 'l', '=', ';', ' ', 'd', 'e', 'l', 'i', 'm', 's', '=', ';'] = .ok (some a) ∧ a.eol = []) ∧
    (∃ a, forMakeInfo o ['d', 'e', 'l', 'i', 'm', 's', '=', ';', ' ', 'e', 'o', 'l', '=', ';'] = .ok (some a) ∧ a.eol = [';']) := by
  have q : ∀ x : List Char, Quiet [';'] x := by
    intro x p s h
    cases p with
    | nil => simp at h
    | cons c p => simp at h
  have h1 : OptsText [.eol [';'], .delims [';']] ['e', 'o', 'l', '=', ';', ' ', 'd', 'e', 'l', 'i', 'm', 's', '=', ';'] :=
    .cons (k := ['e', 'o', 'l', '=']) (v := [';']) (.eol (by decide)) (q _)
      (.last (k := ['d', 'e', 'l', 'i', 'm', 's', '=']) (v := [';']) (.delims (by decide)) (q _)) (by simp)
  have h2 : OptsText [.delims [';'], .eol [';']] ['d', 'e', 'l', 'i', 'm', 's', '=', ';', ' ', 'e', 'o', 'l', '=', ';'] :=
    .cons (k := ['d', 'e', 'l', 'i', 'm', 's', '=']) (v := [';']) (.delims (by decide)) (q _)
      (.last (k := ['e', 'o', 'l', '=']) (v := [';']) (.eol (by decide)) (q _)) (by simp)
  exact ⟨⟨_, makeInfo_steps h1 (by simp [Fits]) o, rfl⟩, ⟨_, makeInfo_steps h2 (by simp [Fits]) o, rfl⟩⟩

/-- Without options a tab is a delimiter too, although the manual names the space only. -/
theorem C70_tab : forGetToken forDefaults.delims (forDefaults.table.head!) ['a', '\t', 'b'] = ['a'] ∧ '\t' ∉ ['a'] := by
  decide +kernel

/-- `"skip=2 Delims=: ," "tokens=1,*"`. -/
example : OptParams [.skip 2, .delims [':', ' ', ','], .tokens [.one 1, .rest]]
      [['s', 'k', 'i', 'p', '=', '2', ' ', 'D', 'e', 'l', 'i', 'm', 's', '=', ':', ' ', ','],
       ['t', 'o', 'k', 'e', 'n', 's', '=', '1', ',', '*']] ∧
    (∃ o, forAllOptions forDefaults
      [['s', 'k', 'i', 'p', '=', '2', ' ', 'D', 'e', 'l', 'i', 'm', 's', '=', ':', ' ', ','],
       ['t', 'o', 'k', 'e', 'n', 's', '=', '1', ',', '*']] = .ok (some o) ∧ o.delims = [':', ' ', ','] ∧ o.eol = [';'] ∧
      o.skip = 2 ∧ o.table.take o.count = [tokenWord 1 1, tokenWord 2 65535]) := by
  have h : OptParams [.skip 2, .delims [':', ' ', ','], .tokens [.one 1, .rest]]
      [['s', 'k', 'i', 'p', '=', '2', ' ', 'D', 'e', 'l', 'i', 'm', 's', '=', ':', ' ', ','],
       ['t', 'o', 'k', 'e', 'n', 's', '=', '1', ',', '*']] := by
    refine .cons (a := [.skip 2, .delims [':', ' ', ',']]) ?_ (.cons (a := [.tokens [.one 1, .rest]]) ?_ .nil)
    · refine .cons (k := ['s', 'k', 'i', 'p', '=']) (v := ['2'] ++ []) (.skip (by decide) ?_ (by simp)) ?_
        (.last (k := ['D', 'e', 'l', 'i', 'm', 's', '=']) (v := [':', ' ', ',']) (.delims (by decide)) ?_) (by simp)
      · exact .plain (.dec (c := '2') (ds := []) (by decide) (by simp))
      · intro p s h
        cases p with
        | nil => simp at h
        | cons c p => simp at h
      · intro p s h
        have hs : s = [','] := by
          match p, h with
          | [], h => simp at h
          | [_], h => simp at h; exact h.2.symm
          | [_, _], h => simp at h
          | _ :: _ :: _ :: p, h => simp at h
        subst hs
        rw [← isSpecifier_head]
        decide
    · refine .last (k := ['t', 'o', 'k', 'e', 'n', 's', '=']) (v := ['1', ',', '*']) (.tokens (by decide) ?_) ?_
      · refine .cons (t := ['1']) (.one (a := []) (t := ['1']) (b := []) (by simp [Blanks]) ?_ (by simp [Blanks]))
          (.single (.rest (a := []) (b := []) (by simp [Blanks]) (by simp [Blanks])))
        exact .plain (.dec (c := '1') (ds := []) (by decide) (by simp))
      · intro p s h
        match p, h with
        | [], h => simp at h
        | [_], h => simp at h
        | [_, _], h => simp at h
        | _ :: _ :: _ :: p, h => simp at h
  refine ⟨h, ?_⟩
  obtain ⟨o, h1, h2, h3, h4, -, h5⟩ := C70_options_partial _ _ h (by
    simp only [List.mem_cons, List.not_mem_nil, or_false, forall_eq_or_imp, forall_eq, Fits]
    refine ⟨by decide, by decide, by simp [ItemOk], [(1, some 1), (2, none)], rfl, ?_, by decide⟩
    intro s hs
    simp only [List.mem_cons, List.not_mem_nil, or_false] at hs
    rcases hs with rfl | rfl <;> simp [SelOk]) (.inl (by simp))
    [(1, some 1), (2, none)] (.inr ⟨_, rfl, rfl⟩) (by simp)
  exact ⟨o, h1, h2, h3.trans (by decide), h4, h5⟩

end PBat
