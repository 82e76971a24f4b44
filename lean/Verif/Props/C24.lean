import Verif.Lemmas.Tokens
import Verif.Props.C23
/-
C24: the `tokens=` option of FOR /F.
-/
namespace PBat
open Spec

theorem orWords_zeros : ∀ (ws pre : List Nat) (k : Nat), ws.length ≤ k →
    orWords (pre ++ List.replicate k 0) pre.length ws = pre ++ ws ++ List.replicate (k - ws.length) 0 := by
  intro ws
  induction ws with
  | nil => intro pre k _; simp [orWords]
  | cons w ws ih =>
    intro pre k hk
    obtain ⟨k, rfl⟩ : ∃ k', k = k' + 1 := ⟨k - 1, by simp at hk; omega⟩
    rw [orWords]
    have e : (pre ++ List.replicate (k + 1) 0).modify pre.length (· ||| w) = (pre ++ [w]) ++ List.replicate k 0 := by
      clear ih hk
      induction pre with
      | nil => rw [List.replicate_succ]; simp
      | cons x pre ih =>
        rw [List.cons_append, List.length_cons, List.modify_succ_cons, ih]
        rfl
    rw [e]
    have := ih (pre ++ [w]) k (by simp at hk; omega)
    rw [List.length_append] at this
    simp only [List.length_cons, List.length_nil, Nat.zero_add] at this
    rw [this]
    simp only [List.append_assoc, List.singleton_append, List.length_cons]
    rw [show k + 1 - (ws.length + 1) = k - ws.length by omega]

theorem orWords_init (w : Nat) (ws : List Nat) (h : ws.length ≤ 95) :
    (orWords tokInit 0 (w :: ws)).take (ws.length + 1) = (65537 ||| w) :: ws := by
  rw [orWords]
  have e : tokInit.modify 0 (· ||| w) = [65537 ||| w] ++ List.replicate 95 0 := rfl
  rw [e]
  have := orWords_zeros ws [65537 ||| w] 95 h
  simp only [List.length_cons, List.length_nil, Nat.zero_add] at this ⊢
  rw [this]
  simp

theorem or_one (n : Nat) : 1 ||| n = if n % 2 = 1 then n else n + 1 := by
  have h : ∀ k : Nat, k <<< 1 + 1 = k <<< 1 ||| 1 := fun k => Nat.shiftLeft_add_eq_or_of_lt (by decide) k
  have hs : ∀ k : Nat, k <<< 1 = 2 * k := fun k => by rw [Nat.shiftLeft_eq]; omega
  by_cases hn : n % 2 = 1
  · rw [if_pos hn]
    obtain ⟨k, rfl⟩ : ∃ k, n = 2 * k + 1 := ⟨n / 2, by omega⟩
    rw [← hs, h, Nat.or_comm, Nat.or_assoc, Nat.or_self]
  · rw [if_neg hn]
    obtain ⟨k, rfl⟩ : ∃ k, n = 2 * k := ⟨n / 2, by omega⟩
    rw [← hs, h, Nat.or_comm]

theorem or_word {n m : Nat} (hm : m < 2 ^ 16) : 65537 ||| tokenWord n m = tokenWord (1 ||| n) (1 ||| m) := by
  have h1 : ∀ a b : Nat, b < 2 ^ 16 → tokenWord a b = a <<< 16 ||| b := by
    intro a b hb
    rw [← Nat.shiftLeft_add_eq_or_of_lt hb, Nat.shiftLeft_eq]
    rfl
  have h2 : (65537 : Nat) = 1 <<< 16 ||| 1 := by decide
  have hlt : 1 ||| m < 2 ^ 16 := by rw [or_one]; split <;> omega
  rw [h1 n m hm, h1 _ _ hlt, h2, Nat.shiftLeft_or_distrib]
  rw [Nat.or_assoc, Nat.or_assoc]
  congr 1
  rw [← Nat.or_assoc, Nat.or_comm 1, Nat.or_assoc]

/-- The option selects exactly the listed tokens, in order, when the first token selected (and, for a range, its end) is odd,
or has no end. -/
theorem C24_selections_partial (its : List TokItem) (t : List Char) (h : ItemsText its t) (hits : ∀ it ∈ its, ItemOk it)
    (sels : List Selection) (hsel : select (some 0) its = some sels) (hok : ∀ s ∈ sels, SelOk s) (hlen : sels.length ≤ 96)
    (hodd : ∀ n e, sels.head? = some (n, e) → n % 2 = 1 ∧ ∀ m, e = some m → m % 2 = 1) :
    forMakeTokens tokInit t = .ok (some (sels.map selWord)) := by
  obtain ⟨st', h1, h2, h3⟩ := tok_items h (some 0) sels { table := tokInit } hits hsel hok ⟨rfl, rfl, rfl, by simp, by
    intro l' hl; simp at hl; subst hl; rfl⟩ (by simpa using hlen)
  unfold forMakeTokens
  rw [h1]
  simp only [Res.ok_bind, Res.pure_eq]
  rw [h2, h3]
  simp only [Nat.zero_add]
  cases sels with
  | nil => rfl
  | cons s ss =>
    obtain ⟨n, e⟩ := s
    rw [List.map_cons, List.length_cons, ← List.length_map (f := selWord), orWords_init _ _ (by simpa using hlen)]
    have ho := hodd n e rfl
    have hk := hok (n, e) (by simp)
    have : 65537 ||| selWord (n, e) = selWord (n, e) := by
      have hm : e.getD 65535 < 2 ^ 16 ∧ e.getD 65535 % 2 = 1 := by
        cases e with
        | none => decide
        | some m => exact ⟨hk.2 m rfl, ho.2 m rfl⟩
      have := or_word (n := n) hm.1
      rw [or_one, or_one, if_pos ho.1, if_pos hm.2] at this
      exact this
    rw [this]

theorem nextVar_toNat {c : Char} {k : Nat} (h : c.toNat + k < 0x80) : ∀ d : Char, d.toNat = c.toNat → d = c := by
  intro d hd
  have := congrArg Char.ofNat hd
  rwa [Char.ofNat_toNat, Char.ofNat_toNat] at this

/-- Every table entry is put into its variable. -/
theorem forSplitTokens_vars (D line : List Char) : ∀ (ts : List Nat) (c : Char) (b : LocalBlock), 0x20 < c.toNat →
    c.toNat + ts.length ≤ 0x80 →
    (∀ i (t : Nat), ts[i]? = some t →
      forSplitTokens D line ts c b (Char.ofNat (c.toNat + i)) = some (forGetToken D t line)) ∧
    (∀ d : Char, d.toNat < c.toNat ∨ c.toNat + ts.length ≤ d.toNat → forSplitTokens D line ts c b d = b d) := by
  intro ts
  induction ts with
  | nil => intro c b _ _; exact ⟨fun i t h => by simp at h, fun d _ => rfl⟩
  | cons t ts ih =>
    intro c b h0 h1
    rw [List.length_cons] at h1
    have hset : setLocalVar b c (some (forGetToken D t line)) = fun x => if x = c then some (forGetToken D t line) else b x := by
      unfold setLocalVar
      rw [if_pos]
      unfold localName
      simp
      omega
    by_cases hts : ts = []
    · subst hts
      have hr : forSplitTokens D line [t] c b = fun x => if x = c then some (forGetToken D t line) else b x := by
        rw [forSplitTokens, forSplitTokens, hset]
      rw [hr]
      constructor
      · intro i t' ht
        cases i with
        | zero => simp at ht; subst ht; simp [Char.ofNat_toNat]
        | succ i => simp at ht
      · intro d hd
        show (if d = c then _ else b d) = b d
        rw [if_neg]
        rintro rfl
        simp at hd
        omega
    · have hl : 1 ≤ ts.length := by cases ts with | nil => exact absurd rfl hts | cons => simp
      have hn : nextVar c = Char.ofNat (c.toNat + 1) := by unfold nextVar; rw [if_pos (by omega)]
      have hn2 : (nextVar c).toNat = c.toNat + 1 := by
        rw [hn]
        have key : ∀ k : Fin 128, (Char.ofNat k).toNat = k := by decide +kernel
        exact key ⟨c.toNat + 1, by omega⟩
      have := ih (nextVar c) (setLocalVar b c (some (forGetToken D t line))) (by omega) (by omega)
      rw [forSplitTokens]
      constructor
      · intro i t' ht
        cases i with
        | zero =>
          simp at ht
          subst ht
          rw [Nat.add_zero, Char.ofNat_toNat, this.2 c (by omega), hset]
          simp
        | succ i =>
          have := this.1 i t' (by simpa using ht)
          rw [hn2] at this
          have e : c.toNat + (i + 1) = c.toNat + 1 + i := by omega
          rw [e]
          exact this
      · intro d hd
        rw [this.2 d (by simp at hd; omega), hset]
        simp only
        rw [if_neg]
        rintro rfl
        simp at hd
        omega

/-- The word of a selection yields what the selection takes from the line. -/
theorem selWord_selects (D line : List Char) (hline : (fields D line).length < 65535) (s : Selection) (h1 : 1 ≤ s.1)
    (h2 : SelOk s) (h3 : ∀ m, s.2 = some m → s.1 ≤ m) : Selects D line s (forGetToken D (selWord s) line) := by
  obtain ⟨n, e⟩ := s
  simp only at h1 h3
  have hn : n < 2 ^ 15 := h2.1
  by_cases hc : (fields D line).length < n
  · have e0 : forGetToken D (selWord (n, e)) line = [] := by
      have hm : e.getD 65535 < 2 ^ 16 := by
        cases e with
        | none => decide
        | some m => exact h2.2 m rfl
      have hs := tokenWord_split (n := n) (m := e.getD 65535) (by omega) hm
      unfold forGetToken
      have : selWord (n, e) = tokenWord n (e.getD 65535) := rfl
      rw [this, hs.1, hs.2]
      rcases scan_no_begin (D := D) (s := line) (b := n) (e := e.getD 65535) (pos := 1) (by omega) with h | h
      · split
        · next h' => rw [h'] at h; simp at h
        · next h' => rw [h'] at h; simp at h
        · rfl
      · rw [h]
    rw [e0]
    exact .missing hc
  · obtain ⟨pre, tok, suf, hf⟩ := FieldAt_exists D line n h1 (by omega)
    have hw := hf.whole
    rw [List.append_assoc] at hw
    cases e with
    | none =>
      have := C23_rest_partial D line n pre tok suf hf hline
      have e1 : forGetToken D (selWord (n, none)) line = tok ++ suf := List.append_cancel_left (this.trans hw)
      rw [e1]
      exact .rest hf
    | some m =>
      by_cases hm : m ≤ (fields D line).length
      · have hnm := h3 m rfl
        obtain ⟨pre', tok', suf', hf'⟩ := FieldAt_exists D line m (by omega) hm
        exact .span hf hf' hnm (C23_range D line n m hnm (h2.2 m rfl) _ _ _ _ _ _ hf hf')
      · have := C23_range_open D line n m (h2.2 m rfl) pre tok suf hf (by omega)
        have e1 : forGetToken D (selWord (n, some m)) line = tok ++ suf := List.append_cancel_left (this.trans hw)
        rw [e1]
        exact .short hf (by omega)

theorem select_bounds : ∀ (its : List TokItem) (l : Option Nat) (sels : List Selection), (∀ it ∈ its, ItemOk it) →
    select l its = some sels → ∀ s ∈ sels, 1 ≤ s.1 ∧ ∀ m, s.2 = some m → s.1 ≤ m := by
  intro its
  induction its with
  | nil => intro l sels _ h; cases l <;> (simp [select] at h; subst h; simp)
  | cons it its ih =>
    intro l sels hits h s hs
    have hit := hits it (by simp)
    have hits' : ∀ it ∈ its, ItemOk it := fun x hx => hits x (by simp [hx])
    cases it with
    | one n =>
      simp only [select, Option.map_eq_some_iff] at h
      obtain ⟨s2, h2, rfl⟩ := h
      rcases List.mem_append.1 hs with hs | hs
      · simp at hs; subst hs; exact ⟨hit.1, by simp⟩
      · exact ih _ _ hits' h2 s hs
    | list n m =>
      simp only [select, Option.map_eq_some_iff] at h
      obtain ⟨s2, h2, rfl⟩ := h
      rcases List.mem_append.1 hs with hs | hs
      · obtain ⟨k, -, rfl⟩ := List.mem_map.1 hs
        have := hit.1
        exact ⟨by simp; omega, by simp⟩
      · exact ih _ _ hits' h2 s hs
    | range n m =>
      simp only [select, Option.map_eq_some_iff] at h
      obtain ⟨s2, h2, rfl⟩ := h
      rcases List.mem_append.1 hs with hs | hs
      · simp at hs; subst hs; exact ⟨hit.1, by simp; exact hit.2.1⟩
      · exact ih _ _ hits' h2 s hs
    | fromOn n =>
      simp only [select, Option.map_eq_some_iff] at h
      obtain ⟨s2, h2, rfl⟩ := h
      rcases List.mem_append.1 hs with hs | hs
      · simp at hs; subst hs; exact ⟨hit.1, by simp⟩
      · exact ih _ _ hits' h2 s hs
    | andRest n =>
      simp only [select, Option.map_eq_some_iff] at h
      obtain ⟨s2, h2, rfl⟩ := h
      rcases List.mem_append.1 hs with hs | hs
      · simp at hs
        rcases hs with rfl | rfl
        · exact ⟨hit.1, by simp⟩
        · exact ⟨by simp, by simp⟩
      · exact ih _ _ hits' h2 s hs
    | rest =>
      cases l with
      | none => simp [select] at h
      | some l =>
        simp only [select, Option.map_eq_some_iff] at h
        obtain ⟨s2, h2, rfl⟩ := h
        rcases List.mem_append.1 hs with hs | hs
        · simp at hs; subst hs; exact ⟨by simp, by simp⟩
        · exact ih _ _ hits' h2 s hs

/-- For every line, the consecutive loop variables receive exactly the listed tokens, in order, and no other variable changes. -/
theorem C24_variables_partial (its : List TokItem) (t : List Char) (h : ItemsText its t) (hits : ∀ it ∈ its, ItemOk it)
    (sels : List Selection) (hsel : select (some 0) its = some sels) (hok : ∀ s ∈ sels, SelOk s) (hlen : sels.length ≤ 96)
    (hodd : ∀ n e, sels.head? = some (n, e) → n % 2 = 1 ∧ ∀ m, e = some m → m % 2 = 1)
    (D line : List Char) (hline : (fields D line).length < 65535) (c : Char) (hc : 0x20 < c.toNat)
    (hc2 : c.toNat + sels.length ≤ 0x80) (b : LocalBlock) :
    ∃ table, forMakeTokens tokInit t = .ok (some table) ∧
      (∀ (i : Nat) (s : Selection), sels[i]? = some s → ∃ text, Selects D line s text ∧
        forSplitTokens D line table c b (Char.ofNat (c.toNat + i)) = some text) ∧
      (∀ d : Char, d.toNat < c.toNat ∨ c.toNat + sels.length ≤ d.toNat → forSplitTokens D line table c b d = b d) := by
  refine ⟨_, C24_selections_partial its t h hits sels hsel hok hlen hodd, ?_, ?_⟩
  · intro i s hs
    have hb := select_bounds its _ sels hits hsel s (List.mem_of_getElem? hs)
    refine ⟨_, selWord_selects D line hline s hb.1 (hok s (List.mem_of_getElem? hs)) hb.2, ?_⟩
    exact (forSplitTokens_vars D line (sels.map selWord) c b hc (by simpa using hc2)).1 i _ (by simp [hs])
  · intro d hd
    exact (forSplitTokens_vars D line (sels.map selWord) c b hc (by simpa using hc2)).2 d (by simpa using hd)

/-- The claim fails otherwise: `tokens=n` with an even `n` selects token `n+1`. -/
theorem C24_even_first (n : Nat) (t : List Char) (ht : Number t (n : Nat)) (h1 : 1 ≤ n) (h2 : n < 2 ^ 15) (he : n % 2 = 0)
    (D line : List Char) : ∃ w, forMakeTokens tokInit t = .ok (some [w]) ∧
      forGetToken D w line = ((fields D line)[n]?).getD [] := by
  have hi : ItemsText [.one n] t := by
    have := ItemText.one (a := []) (b := []) (by simp [Blanks]) ht (by simp [Blanks])
    simp at this
    exact .single this
  obtain ⟨st', e1, e2, e3⟩ := tok_items hi (some 0) [(n, some n)] { table := tokInit } (by simp [ItemOk]; omega) rfl
    (by simp [SelOk]; omega) ⟨rfl, rfl, rfl, by simp, by intro l' hl; simp at hl; subst hl; rfl⟩ (by simp)
  refine ⟨65537 ||| tokenWord n n, ?_, ?_⟩
  · unfold forMakeTokens
    rw [e1]
    simp only [Res.ok_bind, Res.pure_eq]
    rw [e2, e3]
    exact congrArg (fun x => Res.ok (some x)) (orWords_init _ [] (by simp))
  · rw [or_word (by omega), or_one, if_neg (by omega), C23_token D line (n + 1) (by omega) (by omega)]
    rfl

/-- In particular `tokens=2` yields the third token of a line. -/
theorem C24_tokens_2 : ∃ w, forMakeTokens tokInit "2".toList = .ok (some [w]) ∧
    forGetToken " ".toList w "a b c".toList = "c".toList := by
  obtain ⟨w, h1, h2⟩ := C24_even_first 2 "2".toList (.plain (.dec (c := '2') (ds := []) (by decide) (by simp))) (by decide) (by decide)
    (by decide) " ".toList "a b c".toList
  exact ⟨w, h1, h2.trans (by decide +kernel)⟩

/-- A second `tokens=` option is merged into the first bit by bit. -/
theorem C24_second_option : ∃ table table', forMakeTokens tokInit "5".toList = .ok (some (table.take 1)) ∧
    table = 327685 :: List.replicate 95 0 ∧ forMakeTokens table "3".toList = .ok (some table') ∧ table' = [tokenWord 7 7] :=
  ⟨327685 :: List.replicate 95 0, [tokenWord 7 7], by decide +kernel, rfl, by decide +kernel, rfl⟩

/-- `tokens=1,4-6, 8*` on a line. -/
example : ItemsText [.one 1, .list 4 6, .andRest 8] "1,4-6, 8*".toList ∧
    select (some 0) [.one 1, .list 4 6, .andRest 8] = some [(1, some 1), (4, some 4), (5, some 5), (6, some 6), (8, some 8), (9, none)] ∧
    forMakeTokens tokInit "1,4-6, 8*".toList = .ok (some
      [tokenWord 1 1, tokenWord 4 4, tokenWord 5 5, tokenWord 6 6, tokenWord 8 8, tokenWord 9 65535]) := by
  have d : ∀ c ∈ "123456789".toList, Number [c] (valueIn 10 [c]) := fun c hc => .plain (.dec hc (by simp))
  have hi : ItemsText [.one 1, .list 4 6, .andRest 8] "1,4-6, 8*".toList := by
    refine .cons (t := ['1']) ?_ (.cons (t := ['4', '-', '6']) ?_ (.single ?_))
    · exact .one (a := []) (t := ['1']) (b := []) (by simp [Blanks]) (d '1' (by decide)) (by simp [Blanks])
    · exact .list (a := []) (t := ['4']) (b := []) (a' := []) (t' := ['6']) (b' := []) (by simp [Blanks]) (d '4' (by decide))
        (by simp [Blanks]) (by simp [Blanks]) (d '6' (by decide)) (by simp [Blanks])
    · exact .andRest (a := [' ']) (t := ['8']) (b := []) (b' := []) (by simp [Blanks]) (d '8' (by decide)) (by simp [Blanks])
        (by simp [Blanks])
  refine ⟨hi, by decide +kernel, ?_⟩
  rw [C24_selections_partial _ _ hi (by simp [ItemOk]) [(1, some 1), (4, some 4), (5, some 5), (6, some 6), (8, some 8), (9, none)]
    (by decide +kernel) (by simp [SelOk]) (by simp) (by simp)]
  decide +kernel

end PBat
