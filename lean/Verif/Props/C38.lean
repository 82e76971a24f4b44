import Verif.Model.ExpandDef
import Verif.Lemmas.Replace
import Verif.Lemmas.Params
/-
C38: a macro substitutes `$1` to `$9` and `$*` by the arguments, once.

The code replaces one symbol after the other in the whole text, so a `$` of an argument is substituted again (`C38_argument_again`), a `$`
before a symbol joins with the substituted text (`C38_dollar_joins`), and `$:` is substituted although it is no symbol (`C38_colon`).
`C38_expand_partial` is the property for the other macros and arguments.
-/
namespace PBat
open Spec

/-- What a macro becomes: `$*` is the text of all arguments, `$1` to `$9` are the arguments, empty if missing. -/
def macroText (all : List Char) (args : List (List Char)) : List Char → List Char
  | [] => []
  | [c] => [c]
  | c :: d :: r =>
    if c = '$' ∧ d = '*' then all ++ macroText all args r
    else if c = '$' ∧ '1' ≤ d ∧ d ≤ '9' then args.getD (d.toNat - '1'.toNat) [] ++ macroText all args r
    else c :: macroText all args (d :: r)

/-- Substitution of the symbols on which `f` is defined. -/
def substSyms (f : Char → Option (List Char)) : List Char → List Char
  | [] => []
  | [c] => [c]
  | c :: d :: r =>
    if c = '$' then
      match f d with
      | some t => t ++ substSyms f r
      | none => c :: substSyms f (d :: r)
    else c :: substSyms f (d :: r)

theorem substSyms_cons {f : Char → Option (List Char)} {c : Char} (h : c ≠ '$') (s : List Char) : substSyms f (c :: s) = c :: substSyms f s := by
  cases s with
  | nil => rfl
  | cons d r => rw [substSyms, if_neg h]

theorem substSyms_append {f : Char → Option (List Char)} {t : List Char} (h : '$' ∉ t) (s : List Char) :
    substSyms f (t ++ s) = t ++ substSyms f s := by
  induction t with
  | nil => rfl
  | cons c t ih =>
    rw [List.cons_append, substSyms_cons (fun e => h (by simp [e])), ih (fun hm => h (List.mem_cons_of_mem _ hm))]
    rfl

/-- One replacement is the substitution of one symbol. -/
theorem replaceText_symbol (v : Char) (hv : v ≠ '$') (rep : List Char) (s : List Char) :
    replaceText ['$', v] rep s = substSyms (fun c => if c = v then some rep else none) s := by
  induction hn : s.length using Nat.strongRecOn generalizing s with
  | ind n ih =>
    subst hn
    match s with
    | [] => rw [replaceText_nil _ _ (by simp)]; rfl
    | [c] => rw [replaceText_cons _ _ (by simp), if_neg (by simp [List.isPrefixOf]), replaceText_nil _ _ (by simp)]; rfl
    | c :: d :: r =>
      rw [replaceText_cons _ _ (by simp), substSyms]
      by_cases hc : c = '$'
      · subst hc
        by_cases hd : d = v
        · subst hd
          rw [if_pos (by simp [List.isPrefixOf])]
          simp only [if_true, List.length_cons, List.length_nil, List.drop_succ_cons, List.drop_zero]
          rw [ih r.length (by simp; omega) r rfl]
        · rw [if_neg (by simp [List.isPrefixOf]; exact fun h => hd h.symm)]
          simp only [if_true, if_neg hd]
          rw [ih (d :: r).length (by simp) (d :: r) rfl]
      · rw [if_neg (by simp [List.isPrefixOf]; exact fun h => absurd h.symm hc), if_neg hc, ih (d :: r).length (by simp) (d :: r) rfl]

/-- No two dollars follow each other. -/
def Undoubled (s : List Char) : Prop := ¬ ['$', '$'] <:+: s

theorem Undoubled.tail {c : Char} {s : List Char} (h : Undoubled (c :: s)) : Undoubled s :=
  fun hi => h (List.IsInfix.trans hi (List.suffix_cons c s).isInfix)

theorem Undoubled.next {c : Char} {s : List Char} (h : Undoubled ('$' :: c :: s)) : c ≠ '$' := by
  rintro rfl
  exact h ⟨[], s, rfl⟩

/-- Substituting one set of symbols after another. -/
theorem substSyms_comp {f g : Char → Option (List Char)} (hf : ∀ c t, f c = some t → '$' ∉ t) (s : List Char) (h : Undoubled s) :
    substSyms g (substSyms f s) = substSyms (fun c => (f c).or (g c)) s := by
  induction hn : s.length using Nat.strongRecOn generalizing s with
  | ind n ih =>
    subst hn
    match s with
    | [] => rfl
    | [c] => rfl
    | c :: d :: r =>
      by_cases hc : c = '$'
      · subst hc
        have hd := h.next
        have hr : Undoubled r := h.tail.tail
        rw [substSyms, substSyms, if_pos rfl, if_pos rfl]
        cases hfd : f d with
        | some t =>
          simp only [Option.some_or]
          rw [substSyms_append (hf d t hfd), ih r.length (by simp; omega) r hr rfl]
        | none =>
          simp only [Option.none_or]
          rw [substSyms_cons hd, substSyms, if_pos rfl]
          cases hgd : g d with
          | some t => simp only; rw [ih r.length (by simp; omega) r hr rfl]
          | none => simp only; rw [substSyms_cons hd, substSyms_cons hd, ih r.length (by simp; omega) r hr rfl]
      · rw [substSyms_cons hc, substSyms_cons hc, substSyms_cons hc, ih (d :: r).length (by simp) (d :: r) h.tail rfl]

theorem macroReplace_symbol (v : Char) (hv : v ≠ '$') (rep s : List Char) :
    macroReplace ['$', v] rep s = .ok (substSyms (fun c => if c = v then some rep else none) s) := by
  rw [← replaceText_symbol v hv]
  obtain ⟨ps, h, -⟩ := replacePieces_spec ['$', v] rep (by simp) s
  simp [macroReplace, replaceText, h]

/-- The values given to the symbols by the loop. -/
def assignSyms : List Char → List (List Char) → Char → Option (List Char)
  | [], _, _ => none
  | v :: vs, as, c => if c = v then some (as.headD []) else assignSyms vs as.tail c

/-- What the loop computes: one symbol after the other. -/
def sequential : List Char → List (List Char) → List Char → List Char
  | [], _, ret => ret
  | v :: vs, as, ret => sequential vs as.tail (substSyms (fun c => if c = v then some (as.headD []) else none) ret)

theorem expandDefLoop_none (ex : List Char → Res (List Char)) : ∀ (vs ret : List Char), '$' ∉ vs →
    expandDefLoop ex vs none ret = .ok (sequential vs [] ret)
  | [], _, _ => rfl
  | v :: vs, ret, hv => by
    rw [expandDefLoop, macroReplace_symbol v (fun h => hv (by simp [h])), Res.ok_bind,
      expandDefLoop_none ex vs _ (fun h => hv (List.mem_cons_of_mem _ h))]
    rfl

theorem expandDefLoop_some (ex : List Char → Res (List Char)) : ∀ (vs ch ret : List Char) (as : List (List Char)), '$' ∉ vs →
    allParams stdDelims ex ch = .ok as → expandDefLoop ex vs (some ch) ret = .ok (sequential vs as ret)
  | [], _, _, _, _, _ => rfl
  | v :: vs, ch, ret, as, hv, has => by
    have hv1 : v ≠ '$' := fun h => hv (by simp [h])
    have hv2 : '$' ∉ vs := fun h => hv (List.mem_cons_of_mem _ h)
    rw [allParams.eq_1] at has
    rw [expandDefLoop]
    split at has
    · next hn =>
      cases has
      rw [hn, Res.ok_bind]
      simp only
      rw [macroReplace_symbol v hv1, Res.ok_bind, expandDefLoop_none ex vs _ hv2]
      rfl
    · next t rest hn =>
      rw [hn, Res.ok_bind]
      simp only
      split at has
      · obtain ⟨as', h1, h2⟩ := res_bind_eq_ok.1 has
        simp only [Res.pure_eq, Res.ok.injEq] at h2
        subst h2
        rw [macroReplace_symbol v hv1, Res.ok_bind, expandDefLoop_some ex vs rest _ as' hv2 h1]
        rfl
      · cases has
    · cases has
    · cases has

theorem sequential_eq (body : List Char) (hb : Undoubled body) : ∀ (vs : List Char) (F : Char → Option (List Char)) (as : List (List Char)),
    (∀ c t, F c = some t → '$' ∉ t) → (∀ a ∈ as, '$' ∉ a) →
    sequential vs as (substSyms F body) = substSyms (fun c => (F c).or (assignSyms vs as c)) body
  | [], F, as, _, _ => by simp [sequential, assignSyms]
  | v :: vs, F, as, hF, hd => by
    rw [sequential, substSyms_comp hF _ hb, sequential_eq body hb vs _ as.tail _ (fun a ha => hd a (List.mem_of_mem_tail ha))]
    · congr 1
      funext c
      cases F c <;> simp only [Option.none_or, Option.some_or, assignSyms]
      split <;> simp
    · intro c t h
      cases hFc : F c with
      | some u => rw [hFc] at h; simp at h; exact h ▸ hF c u hFc
      | none =>
        rw [hFc] at h
        simp only [Option.none_or] at h
        split at h
        · cases h
          cases as with
          | nil => simp
          | cons a as => exact hd a List.mem_cons_self
        · cases h

/-- The symbols in all, against the specification. -/
theorem substSyms_macro (all : List Char) (as : List (List Char)) (body : List Char) (h : ¬ ['$', ':'] <:+: body) :
    substSyms (fun c => (if c = '*' then some all else none).or (assignSyms ['1', '2', '3', '4', '5', '6', '7', '8', '9', ':'] as c)) body =
      macroText all as body := by
  induction hn : body.length using Nat.strongRecOn generalizing body with
  | ind n ih =>
    subst hn
    match body with
    | [] => rfl
    | [c] => rfl
    | c :: d :: r =>
      have h1 : ¬ ['$', ':'] <:+: d :: r := fun hi => h (List.IsInfix.trans hi (List.suffix_cons c _).isInfix)
      have h2 : ¬ ['$', ':'] <:+: r := fun hi => h1 (List.IsInfix.trans hi (List.suffix_cons d _).isInfix)
      have i1 := ih (d :: r).length (by simp) (d :: r) h1 rfl
      have i2 := ih r.length (by simp; omega) r h2 rfl
      rw [substSyms, macroText]
      by_cases hc : c = '$'
      · subst hc
        rw [if_pos rfl]
        by_cases hs : d = '*'
        · subst hs
          simp only [if_true, Option.some_or, and_self]
          rw [i2]
        · rw [if_neg hs, if_neg (fun h => hs h.2), Option.none_or]
          by_cases hdig : '1' ≤ d ∧ d ≤ '9'
          · rw [if_pos ⟨rfl, hdig⟩]
            have hval : assignSyms ['1', '2', '3', '4', '5', '6', '7', '8', '9', ':'] as d = some (as.getD (d.toNat - '1'.toNat) []) := by
              have hb : 49 ≤ d.toNat ∧ d.toNat ≤ 57 := hdig
              have hcases : d = '1' ∨ d = '2' ∨ d = '3' ∨ d = '4' ∨ d = '5' ∨ d = '6' ∨ d = '7' ∨ d = '8' ∨ d = '9' := by
                have hof : ∀ n : Nat, d.toNat = n → d = Char.ofNat n := fun n hn => by rw [← hn, Char.ofNat_toNat]
                rcases (by omega : d.toNat = 49 ∨ d.toNat = 50 ∨ d.toNat = 51 ∨ d.toNat = 52 ∨ d.toNat = 53 ∨ d.toNat = 54 ∨ d.toNat = 55 ∨
                  d.toNat = 56 ∨ d.toNat = 57) with h | h | h | h | h | h | h | h | h <;> (have := hof _ h; subst this) <;> decide
              have hget : ∀ (k : Nat) (l : List (List Char)), l.getD (k + 1) [] = l.tail.getD k [] := by
                intro k l; cases l <;> simp
              have hhead : ∀ l : List (List Char), l.getD 0 [] = l.headD [] := by
                intro l; cases l <;> rfl
              rcases hcases with rfl | rfl | rfl | rfl | rfl | rfl | rfl | rfl | rfl <;>
                simp only [assignSyms, Char.reduceEq, if_false, if_true, Char.reduceToNat, Nat.reduceSub, hget, hhead]
            rw [hval]
            simp only
            rw [i2]
          · rw [if_neg (fun h => hdig h.2)]
            have hnone : assignSyms ['1', '2', '3', '4', '5', '6', '7', '8', '9', ':'] as d = none := by
              have hcol : d ≠ ':' := by rintro rfl; exact h ⟨[], r, rfl⟩
              have hne : ∀ x : Char, '1' ≤ x ∧ x ≤ '9' → d ≠ x := by rintro x hx rfl; exact hdig hx
              simp only [assignSyms]
              rw [if_neg (hne _ (by decide)), if_neg (hne _ (by decide)), if_neg (hne _ (by decide)), if_neg (hne _ (by decide)),
                if_neg (hne _ (by decide)), if_neg (hne _ (by decide)), if_neg (hne _ (by decide)), if_neg (hne _ (by decide)),
                if_neg (hne _ (by decide)), if_neg hcol]
            rw [hnone]
            simp only
            rw [i1]
      · rw [if_neg hc, if_neg (fun h => hc h.1), if_neg (fun h => hc h.1), i1]

theorem skipBlanks_dropWhile (s : List Char) : skipBlanks s = s.dropWhile (fun c => decide (Blank c)) := by
  induction s with
  | nil => rfl
  | cons c s ih =>
    rw [skipBlanks, List.dropWhile_cons, ih]
    have : isDelim c = decide (Blank c) := by
      unfold isDelim Blank
      rw [Bool.eq_iff_iff]
      simp only [Bool.or_eq_true, beq_iff_eq, decide_eq_true_eq]
      grind
    rw [this]

/-- What the code computes, for all macros and arguments: `$*`, then one symbol after the other. -/
theorem expandDef_sequential (ex : List Char → Res (List Char)) (line body : List Char) (as : List (List Char))
    (has : allParams stdDelims ex line = .ok as) :
    expandDef ex line body = .ok (sequential ['1', '2', '3', '4', '5', '6', '7', '8', '9', ':'] as
      (substSyms (fun c => if c = '*' then some (skipBlanks line) else none) body)) := by
  have has' : allParams stdDelims ex (skipBlanks line) = .ok as := by
    have hn : nextParam stdDelims ex (skipBlanks line) = nextParam stdDelims ex line := nextParam_skip _ _
    rw [allParams.eq_1] at has ⊢
    rw [hn]
    split at has
    · exact has
    · next t rest hq =>
      split at has
      · next hlt =>
        have : rest.length < (skipBlanks line).length := nextParam_rest_lt (hn ▸ hq)
        rw [if_pos this]
        exact has
      · cases has
    · cases has
    · cases has
  unfold expandDef
  simp only
  rw [macroReplace_symbol '*' (by decide), Res.ok_bind, expandDefLoop_some ex _ _ _ as (by decide) has']

/-- The same symbol by symbol, for macros without `$$` and arguments without `$`. -/
theorem expandDef_eq (ex : List Char → Res (List Char)) (line body : List Char) (as : List (List Char))
    (has : allParams stdDelims ex line = .ok as) (hb : Undoubled body) (hl : '$' ∉ line) (ha : ∀ a ∈ as, '$' ∉ a) :
    expandDef ex line body = .ok (substSyms (fun c => (if c = '*' then some (line.dropWhile (fun c => decide (Blank c))) else none).or
      (assignSyms ['1', '2', '3', '4', '5', '6', '7', '8', '9', ':'] as c)) body) := by
  rw [expandDef_sequential ex line body as has, sequential_eq body hb _ _ as _ ha, skipBlanks_dropWhile]
  intro c t h
  split at h
  · cases h
    rw [skipBlanks_dropWhile]
    exact fun h => hl ((List.dropWhile_sublist _).subset h)
  · cases h

/-- Macros without `$$` and `$:`, arguments without `$`: every symbol is substituted by its argument, whatever the number of arguments.
Missing: the other macros and arguments. -/
theorem C38_expand_partial (ex : List Char → Res (List Char)) (line body : List Char) (as : List (List Char))
    (has : allParams stdDelims ex line = .ok as) (hb : Undoubled body) (hcol : ¬ ['$', ':'] <:+: body) (hl : '$' ∉ line)
    (ha : ∀ a ∈ as, '$' ∉ a) :
    expandDef ex line body = .ok (macroText (line.dropWhile (fun c => decide (Blank c))) as body) := by
  rw [expandDef_eq ex line body as has hb hl ha, substSyms_macro _ _ _ hcol]

/-- Violation: the symbol `$2` inside the first argument is substituted, for every way of writing the arguments. -/
theorem C38_argument_again (ex : List Char → Res (List Char)) (line x : List Char) (has : allParams stdDelims ex line = .ok ["$2".toList, x])
    (hx : '$' ∉ x) :
    expandDef ex line "$1".toList = .ok x ∧ macroText (skipBlanks line) ["$2".toList, x] "$1".toList = "$2".toList := by
  refine ⟨?_, by simp [macroText]⟩
  have hid : ∀ (f : Char → Option (List Char)), substSyms f x = x := by
    intro f
    have := substSyms_append (f := f) hx []
    simpa [substSyms] using this
  rw [expandDef_sequential ex line _ _ has]
  simp [sequential, substSyms, hid]

/-- Violation: a dollar before a symbol joins with the text of the argument. -/
theorem C38_dollar_joins (ex : List Char → Res (List Char)) (line x : List Char) (has : allParams stdDelims ex line = .ok ["2".toList, x])
    (hx : '$' ∉ x) :
    expandDef ex line "$$1".toList = .ok x ∧ macroText (skipBlanks line) ["2".toList, x] "$$1".toList = "$2".toList := by
  refine ⟨?_, by simp [macroText]⟩
  have hid : ∀ (f : Char → Option (List Char)), substSyms f x = x := by
    intro f
    have := substSyms_append (f := f) hx []
    simpa [substSyms] using this
  rw [expandDef_sequential ex line _ _ has]
  simp [sequential, substSyms, hid]

/-- Violation: `$:` is substituted by the tenth argument, and disappears without one. -/
theorem C38_colon (ex : List Char → Res (List Char)) (line : List Char) (as : List (List Char))
    (has : allParams stdDelims ex line = .ok as) (hl : '$' ∉ line) (ha : ∀ a ∈ as, '$' ∉ a) :
    expandDef ex line "$:".toList = .ok (as.getD 9 []) ∧ macroText (line.dropWhile (fun c => decide (Blank c))) as "$:".toList = "$:".toList := by
  constructor
  · rw [expandDef_eq ex line "$:".toList as has (by unfold Undoubled; decide) hl ha]
    have hget : ∀ (k : Nat) (l : List (List Char)), l.getD (k + 1) [] = l.tail.getD k [] := by
      intro k l; cases l <;> simp
    have hhead : ∀ l : List (List Char), l.getD 0 [] = l.headD [] := by
      intro l; cases l <;> rfl
    have : assignSyms ['1', '2', '3', '4', '5', '6', '7', '8', '9', ':'] as ':' = some (as.getD 9 []) := by
      simp only [assignSyms, Char.reduceEq, if_false, if_true, hget, hhead]
    rw [show "$:".toList = ['$', ':'] from rfl, substSyms, if_pos rfl, if_neg (by decide), Option.none_or, this]
    simp [substSyms]
  · rfl

/- Examples. -/
example : allParams stdDelims .ok " a \"b c\"".toList = .ok ["a".toList, "b c".toList] := by decide +kernel
example : allParams stdDelims .ok "$2 x".toList = .ok ["$2".toList, "x".toList] := by decide +kernel
example : allParams stdDelims .ok "2 x".toList = .ok ["2".toList, "x".toList] := by decide +kernel
example : macroText "a b".toList ["a".toList, "b".toList] "x $2-$1 $* $9 $10.".toList = "x b-a a b  a0.".toList := by decide +kernel
example : Undoubled "x $2-$1 $*".toList := by unfold Undoubled; decide +kernel

end PBat
