import Verif.Lemmas.Timeout
import Verif.Lemmas.Def
import Verif.Props.C54
/-
C92: TIMEOUT.
-/
namespace PBat
open Spec

theorem fold_decimal (ds : List Char) (h : ∀ d ∈ ds, d ∈ "0123456789".toList) (acc : Nat) :
    ds.foldl (fun a c => a * 10 + digitVal c) acc = ds.foldl (fun a c => a * 10 + hexDigits.idxOf c.toLower) acc := by
  induction ds generalizing acc with
  | nil => rfl
  | cons c ds ih =>
    rw [List.foldl_cons, List.foldl_cons, (digit_dec c (h c (by simp))).2]
    exact ih (fun d hd => h d (by simp [hd])) _

theorem point_high : 10 ≤ digitVal '.' := by decide

theorem scanPoint_seconds {t : List Char} {m f : Nat} (h : Seconds t m f) : scanPoint 10 t = some (m, f, []) := by
  cases h with
  | whole ha hd =>
    have h1 := scanBase_all t (fun c hc => (digit_dec c (hd c hc)).1) [] (by simp) 0
    rw [List.append_nil, fold_decimal t hd] at h1
    unfold scanPoint
    simp only [h1]
    rw [if_neg (by have := List.length_pos_iff.2 ha; simp only [List.length_nil]; omega)]
    rfl
  | @point a b hne hd =>
    have hd1 : ∀ d ∈ a, d ∈ "0123456789".toList := fun d h => hd d (by simp [h])
    have hd2 : ∀ d ∈ b, d ∈ "0123456789".toList := fun d h => hd d (by simp [h])
    have h1 := scanBase_all a (fun c hc => (digit_dec c (hd1 c hc)).1) ('.' :: b) (by intro c hc; cases hc; exact point_high) 0
    have h2 := scanBase_all b (fun c hc => (digit_dec c (hd2 c hc)).1) [] (by simp) (a.foldl (fun a c => a * 10 + digitVal c) 0)
    rw [List.append_nil, ← List.foldl_append, fold_decimal _ hd] at h2
    unfold scanPoint
    simp only [h1, h2]
    rw [if_neg]
    · simp [valueIn]
    · rintro ⟨h3, h4⟩
      simp at h3 h4
      exact hne (by rw [h3, List.length_eq_zero_iff.1 h4.symm]; rfl)

theorem seconds_chars {t : List Char} {m f : Nat} (h : Seconds t m f) : t ≠ [] ∧ ∀ c ∈ t, c ∈ "0123456789.".toList := by
  have hs : ∀ c ∈ "0123456789".toList, c ∈ "0123456789.".toList := by decide
  cases h with
  | whole ha hd => exact ⟨ha, fun c hc => hs c (hd c hc)⟩
  | point hne hd =>
    refine ⟨by simp, ?_⟩
    intro c hc
    rcases List.mem_append.1 hc with hc | hc
    · exact hs c (hd c (by simp [hc]))
    · rcases List.mem_cons.1 hc with rfl | hc
      · decide
      · exact hs c (hd c (by simp [hc]))

theorem number_char : ∀ c ∈ "0123456789.".toList, isSpace c = false ∧ c ≠ '-' ∧ c ≠ '+' ∧ c.toLower ≠ 'x' ∧ c.toLower ≠ 'i' ∧ c.toLower ≠ 'n' ∧
    c ≠ '/' := by decide

/-- The `double` a duration is read as. -/
theorem scanReal_seconds (neg : Bool) {t : List Char} {m f : Nat} (h : Seconds t m f) :
    scanReal neg t = some (fMag neg (roundRatio (m * fOne) (10 ^ f)), []) := by
  have hc := seconds_chars h
  have hd : scanDecimal neg t = some (fMag neg (roundRatio (m * fOne) (10 ^ f)), []) := by
    unfold scanDecimal
    rw [scanPoint_seconds h]
    simp only [Option.map_some]
    show some (fScale neg 10 m (0 - f), []) = _
    unfold fScale
    by_cases h0 : f = 0
    · subst h0
      simp
    · rw [if_neg (by omega)]
      simp
  have hw : (scanRealWord neg t).orElse (fun _ => scanDecimal neg t) = scanDecimal neg t := by
    cases t with
    | nil => exact absurd rfl hc.1
    | cons c r =>
      have := number_char c (hc.2 c (by simp))
      unfold scanRealWord
      rw [if_neg, if_neg, if_neg]
      · rfl
      all_goals
        simp only [List.take_succ_cons, List.map_cons, List.cons.injEq]
        intro h
        simp [this] at h
  unfold scanReal
  split
  · rename_i x r
    have := number_char x (hc.2 x (by simp))
    rw [if_neg this.2.2.2.1, hd]
  · rw [hw, hd]

theorem strtod_seconds {t : List Char} {m f : Nat} (h : Seconds t m f) : strtodF t = (fMag false (roundRatio (m * fOne) (10 ^ f)), []) := by
  have hc := seconds_chars h
  have hs := scanReal_seconds false h
  cases t with
  | nil => exact absurd rfl hc.1
  | cons c r =>
    have := number_char c (hc.2 c (by simp))
    unfold strtodF
    rw [List.dropWhile_cons_of_neg (by simp [this.1])]
    split
    · rename_i heq; cases heq; exact absurd rfl this.2.1
    · rename_i heq; cases heq; exact absurd rfl this.2.2.1
    · rw [hs]; rfl

theorem strtod_minus {t : List Char} {m f : Nat} (h : Seconds t m f) : strtodF ('-' :: t) = (fMag true (roundRatio (m * fOne) (10 ^ f)), []) := by
  unfold strtodF
  rw [List.dropWhile_cons_of_neg (by decide)]
  simp only [scanReal_seconds true h]
  rfl

theorem seconds_bound {m f : Nat} (hm : m ≤ 100000 * 10 ^ f) : roundRatio (m * fOne) (10 ^ f) ≤ longest := by
  have hq : 0 < 10 ^ f := Nat.pow_pos (by omega)
  have h1 := (roundRatio_near (p := m * fOne) hq).1
  have h2 : m * fOne ≤ 100000 * 10 ^ f * fOne := Nat.mul_le_mul_right _ hm
  rw [Nat.mul_assoc] at h2
  have h3 : 10 ^ f * 1 ≤ 10 ^ f * fOne := Nat.mul_le_mul_left _ fOne_pos
  have h4 : 10 ^ f * roundRatio (m * fOne) (10 ^ f) ≤ 10 ^ f * (100001 * fOne) := by
    rw [Nat.mul_left_comm]
    omega
  exact Nat.le_of_mul_le_mul_left h4 hq

theorem seconds_pos {m f : Nat} (hm : m ≠ 0) (hf : f ≤ 300) : roundRatio (m * fOne) (10 ^ f) ≠ 0 := by
  intro h0
  have hq : 0 < 10 ^ f := Nat.pow_pos (by omega)
  have h1 := (roundRatio_near (p := m * fOne) hq).2
  rw [h0, Nat.mul_zero] at h1
  have h2 : 10 ^ f ≤ fOne := Nat.le_trans (Nat.pow_le_pow_right (by omega) hf) (by decide +kernel)
  have h4 : 1 * fOne ≤ m * fOne := Nat.mul_le_mul_right _ (by omega)
  omega

theorem fMag_small {n : Nat} (neg : Bool) (h : n ≤ longest) : fMag neg n = .fin neg n := by
  have : longest < 2 ^ 2098 := by decide +kernel
  rw [fMag, if_neg (by omega)]

theorem fMag_cases (neg : Bool) (n : Nat) : fMag neg n = .inf neg ∨ fMag neg n = .fin neg n := by
  unfold fMag
  generalize 2 ^ 2098 = b
  by_cases h : b ≤ n
  · exact .inl (if_pos h)
  · exact .inr (if_neg h)

theorem fMag_nonzero {n : Nat} (h : n ≠ 0) (neg : Bool) : (fMag neg n).nonzero = true := by
  rcases fMag_cases neg n with hn | hn <;> rw [hn]
  · rfl
  · simpa [FDbl.nonzero] using h

/-- A duration other than 0 is read as a number other than 0. -/
theorem strtod_read {t : List Char} {m f : Nat} (h : Seconds t m f) (hm : m ≠ 0) (hf : f ≤ 300) :
    ∃ n, strtodF t = (fMag false n, []) ∧ strtodF ('-' :: t) = (fMag true n, []) ∧ n ≠ 0 :=
  ⟨_, strtod_seconds h, strtod_minus h, seconds_pos hm hf⟩

theorem seconds_nonzero {t : List Char} {m f : Nat} (h : Seconds t m f) (hm : m ≠ 0) (hf : f ≤ 300) : (strtodF t).1.nonzero = true := by
  obtain ⟨n, h1, -, h2⟩ := strtod_read h hm hf
  simp only [h1, fMag_nonzero h2]

/-! ### The parameters -/

theorem not_slash {a : List Char} (h : a.head? ≠ some '/') (b : List Char) : stricmp a ('/' :: b) ≠ 0 := by
  intro h0
  rw [stricmp_zero] at h0
  cases a with
  | nil => simp [fold] at h0
  | cons c r =>
    simp [fold] at h0
    have hc : c.toLower = '/' := h0.1
    exact h (by rw [toLower_slash hc]; rfl)

theorem digit_not_slash {t : List Char} {m f : Nat} (h : Seconds t m f) : t.head? ≠ some '/' := by
  have hc := seconds_chars h
  cases t with
  | nil => simp
  | cons c r => simpa using (number_char c (hc.2 c (by simp))).2.2.2.2.2.2

theorem word_step {ex : List Char → Res (List Char)} {line a r : List Char} (hn : nextParam stdDelims ex line = .ok (some (a, r)))
    (hl : r.length < line.length) (hs : a.head? ≠ some '/') (nb : Bool) (cur : FDbl) :
    timeoutScan ex nb cur line =
      if cur.nonzero then .ok .bad else if (strtodF a).2 ≠ [] then .ok .bad else timeoutScan ex nb (strtodF a).1 r := by
  rw [timeoutScan.eq_1, hn]
  simp only
  rw [if_neg (not_slash hs _), if_neg (not_slash hs _), if_neg (not_slash hs _), if_pos hl]

theorem t_step {ex : List Char → Res (List Char)} {line a r : List Char} (hn : nextParam stdDelims ex line = .ok (some (a, r)))
    (hl : r.length < line.length) (ha : a.map Char.toLower = ['/', 't']) (nb : Bool) (cur : FDbl) :
    timeoutScan ex nb cur line = timeoutScan ex nb cur r := by
  have h1 : ¬ stricmp a ['/', '?'] = 0 := by rw [stricmp_zero, fold, ha]; decide
  have h2 : stricmp a ['/', 'T'] = 0 := by rw [stricmp_zero, fold, ha]; decide
  rw [timeoutScan.eq_1, hn]
  simp only
  rw [if_neg h1, if_pos h2, if_pos hl]

theorem nobreak_step {ex : List Char → Res (List Char)} {line a r : List Char} (hn : nextParam stdDelims ex line = .ok (some (a, r)))
    (hl : r.length < line.length) (ha : a.map Char.toLower = "/nobreak".toList) (nb : Bool) (cur : FDbl) :
    timeoutScan ex nb cur line = timeoutScan ex true cur r := by
  have h1 : ¬ stricmp a ['/', '?'] = 0 := by rw [stricmp_zero, fold, ha]; decide
  have h2 : ¬ stricmp a ['/', 'T'] = 0 := by rw [stricmp_zero, fold, ha]; decide
  have h3 : stricmp a ['/', 'N', 'O', 'B', 'R', 'E', 'A', 'K'] = 0 := by rw [stricmp_zero, fold, ha]; decide
  rw [timeoutScan.eq_1, hn]
  simp only
  rw [if_neg h1, if_neg h2, if_pos h3, if_pos hl]

/-- The number asked for. -/
def askedFor (cur : FDbl) (s : Option (List Char)) : FDbl := (s.map fun a => (strtodF a).1).getD cur

/-- The options and the duration are read, whatever follows. -/
theorem scan_prefix (c : Ctx) {as : List (List Char)} {b : Bool} {s : Option (List Char)} (h : TimeoutLine as b s) (rest : List (List Char)) :
    ∀ (line : List Char) (nb : Bool) (cur : FDbl), Kept line (as ++ rest) → (s ≠ none → cur.nonzero = false) →
      ∃ line', Kept line' rest ∧ timeoutScan c.ex nb cur line = timeoutScan c.ex (nb || b) (askedFor cur s) line' := by
  induction h with
  | nil => intro line nb cur hk _; exact ⟨line, hk, by simp [askedFor]⟩
  | t ha _ ih =>
    intro line nb cur hk hz
    rcases kept_next c hk with ⟨e, -⟩ | ⟨a', as', t', e, hn, hk', hl⟩
    · simp at e
    · simp only [List.cons_append, List.cons.injEq] at e
      obtain ⟨rfl, rfl⟩ := e
      obtain ⟨l, h1, h2⟩ := ih t' nb cur hk' hz
      exact ⟨l, h1, by rw [t_step hn hl ha, h2]⟩
  | nobreak ha _ ih =>
    intro line nb cur hk hz
    rcases kept_next c hk with ⟨e, -⟩ | ⟨a', as', t', e, hn, hk', hl⟩
    · simp at e
    · simp only [List.cons_append, List.cons.injEq] at e
      obtain ⟨rfl, rfl⟩ := e
      obtain ⟨l, h1, h2⟩ := ih t' true cur hk' hz
      exact ⟨l, h1, by rw [nobreak_step hn hl ha, h2]; simp⟩
  | @seconds a as b m f ha _ ih =>
    intro line nb cur hk hz
    rcases kept_next c hk with ⟨e, -⟩ | ⟨a', as', t', e, hn, hk', hl⟩
    · simp at e
    · simp only [List.cons_append, List.cons.injEq] at e
      obtain ⟨rfl, rfl⟩ := e
      obtain ⟨l, h1, h2⟩ := ih t' nb (strtodF a).1 hk' (by simp)
      refine ⟨l, h1, ?_⟩
      rw [word_step hn hl (digit_not_slash ha), hz (by simp), if_neg (by simp), if_neg (by rw [strtod_seconds ha]; simp), h2]
      simp [askedFor]

theorem timeout_end (c : Ctx) {line : List Char} (hk : Kept line []) (nb : Bool) (cur : FDbl) : timeoutScan c.ex nb cur line = .ok (.wait nb cur) := by
  rcases kept_next c hk with ⟨-, hn⟩ | ⟨a', as', t', e, -⟩
  · rw [timeoutScan.eq_1, hn]
  · simp at e

theorem scan_line (c : Ctx) {line : List Char} {as : List (List Char)} {b : Bool} {s : Option (List Char)} (hk : Kept line as)
    (h : TimeoutLine as b s) : timeoutScan c.ex false (.fin false 0) line = .ok (.wait b (askedFor (.fin false 0) s)) := by
  obtain ⟨l, h1, h2⟩ := scan_prefix c h [] line false (.fin false 0) (by simpa using hk) (fun _ => rfl)
  rw [h2, timeout_end c h1]
  simp

theorem cmd_wait {ex : List Char → Res (List Char)} {line : List Char} {nb : Bool} {x : FDbl}
    (h : timeoutScan ex false (.fin false 0) line = .ok (.wait nb x)) (key : Option Nat) {t : Nat} (ht : timeoutWait nb key x = .ok t) :
    cmdTimeout ex key line = .ok (0, t) := by
  unfold cmdTimeout
  rw [h]
  simp only [Res.ok_bind, ht]

/-! ### The claims -/

/-- For every way of writing the options and a duration up to 100000 seconds, TIMEOUT takes a time `D` within a thousandth of a second or two of
the duration: `D` is less than a thousandth more, and less than two thousandths less. Without keys, or with `/NOBREAK`, it lasts `D`.
Otherwise a key pressed at the time `T` ends it within a tenth of a second, and nothing else ends it before.
Missing: exactly the duration (`C92_short`). -/
theorem C92_wait_partial {q : Char → Bool} (hq : q '"' = true) (hc : q '^' = true) (hp : q '%' = true) (he : q '!' = true) (c : Ctx)
    {line t : List Char} {as : List (List Char)} {nb : Bool} {m f : Nat} (h : ParamLine q line as) (ha : TimeoutLine as nb (some t))
    (ht : Seconds t m f) (hm : m ≤ 100000 * 10 ^ f) :
    ∃ D, D * 10 ^ f < 1000 * m + 10 ^ f ∧ 1000 * m < (D + 2) * 10 ^ f ∧
      (∀ key, nb = true ∨ key = none → cmdTimeout c.ex key line = .ok (0, D)) ∧
      (nb = false → ∀ T, ∃ e, cmdTimeout c.ex (some T) line = .ok (0, e) ∧ e ≤ D ∧ e ≤ T + 100 ∧ (e = D ∨ T ≤ e)) := by
  have hs := scan_line c (kept_line hq hc hp he h) ha
  simp only [askedFor, Option.map_some, Option.getD_some, strtod_seconds ht, fMag_small false (seconds_bound hm)] at hs
  have hn := seconds_bound hm
  have hqp : 0 < 10 ^ f := Nat.pow_pos (by omega)
  have hr := roundRatio_near (p := m * fOne) hqp
  generalize roundRatio (m * fOne) (10 ^ f) = n at *
  obtain ⟨D, e, g1, g2⟩ := timeoutLoop_duration (nobreak := false) (key := none) (.inr rfl) n 0 hn
  rw [Nat.zero_add] at e
  have hmz : m * fOne ≤ 100000 * (10 ^ f * fOne) := by rw [← Nat.mul_assoc]; exact Nat.mul_le_mul_right _ hm
  have hbig : 2 ^ 100 * 10 ^ f ≤ 10 ^ f * fOne := by
    rw [Nat.mul_comm]
    exact Nat.mul_le_mul_left _ (by decide +kernel)
  have k1 := Nat.mul_le_mul_left (10 ^ f) g1
  have k2 := Nat.mul_le_mul_left (10 ^ f) g2
  generalize hQ : 10 ^ f = Q at *
  have e1 : ∀ k : Nat, Q * (k * fOne) = k * (Q * fOne) := fun k => Nat.mul_left_comm _ _ _
  have e2 : Q * (D * fOne) = D * Q * fOne := by rw [Nat.mul_left_comm, Nat.mul_assoc]
  simp only [Nat.mul_add, Nat.mul_left_comm Q (100 * 2 ^ 26), Nat.mul_left_comm Q 1000, Nat.mul_left_comm Q 100, e2] at k1 k2
  refine ⟨D, ?_, ?_, ?_, ?_⟩
  · have : D * Q * fOne < (1000 * m + Q) * fOne := by
      rw [Nat.add_mul, Nat.mul_assoc 1000]
      generalize D * Q * fOne = y at *
      generalize m * fOne = w at *
      generalize Q * n = x at *
      generalize Q * fOne = z at *
      omega
    exact Nat.lt_of_mul_lt_mul_right this
  · have : 1000 * m * fOne < (D + 2) * Q * fOne := by
      rw [Nat.add_mul, Nat.add_mul, Nat.mul_assoc 1000, Nat.mul_assoc 2]
      generalize D * Q * fOne = y at *
      generalize m * fOne = w at *
      generalize Q * n = x at *
      generalize Q * fOne = z at *
      omega
    exact Nat.lt_of_mul_lt_mul_right this
  · intro key hk
    refine cmd_wait hs key ?_
    rw [← e]
    exact timeoutLoop_still hk n 0
  · intro hb T
    obtain ⟨-, e', g3, g4, g5, g6, g7⟩ := timeoutLoop_key T n 0 D hn (by omega) e
    exact ⟨e', cmd_wait (x := .fin false n) (by rw [hs, hb]) _ g3, g5, g6, g7⟩

theorem lower_in {c : Char} {l : Char} (hl : l = 'i' ∨ l = 'n') (h : c.toLower = l) : c ∈ "nNiI".toList := by
  have key : ∀ n : Fin 128, (Char.ofNat n).toLower = 'i' ∨ (Char.ofNat n).toLower = 'n' → Char.ofNat n ∈ "nNiI".toList := by decide +kernel
  by_cases hb : c.toNat < 128
  · have := key ⟨c.toNat, hb⟩
    simp only [Char.ofNat_toNat] at this
    apply this
    rcases hl with rfl | rfl
    · exact .inl h
    · exact .inr h
  · exfalso
    have hu : ¬ (c.val ≥ 65 ∧ c.val ≤ 90) := by
      rintro ⟨-, h2⟩
      have : c.val.toNat ≤ 90 := h2
      have : c.toNat = c.val.toNat := rfl
      omega
    have : c.toLower = c := by
      unfold Char.toLower
      split
      · rename_i hh; exact absurd (by simpa using hh) hu
      · rfl
    rw [this] at h
    subst h
    rcases hl with rfl | rfl <;> exact hb (by decide)

/-- Texts that do not begin a number. -/
theorem strtod_nothing {ch : Char} {r : List Char} (h : ch ∉ " \t\n\r0123456789+-.nNiI".toList) (h1 : ch.toNat ≠ 11) (h2 : ch.toNat ≠ 12) :
    strtodF (ch :: r) = (.fin false 0, ch :: r) := by
  have hsub : ∀ d ∈ "0123456789nNiI".toList ++ ['.', '-', '+', ' ', '\t', '\n', '\r'], d ∈ " \t\n\r0123456789+-.nNiI".toList := by decide
  have hne : ∀ d ∈ "0123456789nNiI".toList ++ ['.', '-', '+', ' ', '\t', '\n', '\r'], ch ≠ d := by rintro d hd rfl; exact h (hsub _ hd)
  have hdig : ¬ digitVal ch < 10 := fun hd => hne ch (by have := digitVal_dec hd; simp only [List.mem_append]; revert this; exact fun this => .inl (by
    have hs : ∀ d ∈ "0123456789".toList, d ∈ "0123456789nNiI".toList := by decide
    exact hs _ this)) rfl
  have hdec : scanDecimal false (ch :: r) = none := by
    unfold scanDecimal scanPoint
    rw [scanBase, if_neg hdig]
    simp only
    split
    · rename_i heq; cases heq; exact absurd rfl (hne '.' (by decide))
    · simp
  have hlow : ch.toLower ≠ 'i' ∧ ch.toLower ≠ 'n' := by
    have hs : ∀ d ∈ "nNiI".toList, d ∈ "0123456789nNiI".toList ++ ['.', '-', '+', ' ', '\t', '\n', '\r'] := by decide
    exact ⟨fun hl => hne ch (hs _ (lower_in (.inl rfl) hl)) rfl, fun hl => hne ch (hs _ (lower_in (.inr rfl) hl)) rfl⟩
  have hword : scanRealWord false (ch :: r) = none := by
    unfold scanRealWord
    rw [if_neg, if_neg, if_neg]
    all_goals
      simp only [List.take_succ_cons, List.map_cons, List.cons.injEq]
      intro h
      simp [hlow] at h
  have hreal : scanReal false (ch :: r) = none := by
    unfold scanReal
    split
    · rename_i heq; cases heq; exact absurd rfl (hne '0' (by decide))
    · rw [hword, hdec]; rfl
  unfold strtodF
  have hsp : isSpace ch = false := by
    have a1 := hne ' ' (by decide)
    have a2 := hne '\t' (by decide)
    have a3 := hne '\n' (by decide)
    have a4 := hne '\r' (by decide)
    simp [isSpace, a1, a2, a3, a4, h1, h2]
  rw [List.dropWhile_cons_of_neg (by simp [hsp])]
  split
  · rename_i heq; cases heq; exact absurd rfl (hne '-' (by decide))
  · rename_i heq; cases heq; exact absurd rfl (hne '+' (by decide))
  · rw [hreal]; rfl

/-- A word that is no option. -/
def NoOption (x : List Char) : Prop :=
  x.map Char.toLower ≠ ['/', '?'] ∧ x.map Char.toLower ≠ ['/', 't'] ∧ x.map Char.toLower ≠ "/nobreak".toList

instance (x) : Decidable (NoOption x) := by unfold NoOption; infer_instance

theorem word_bad {ex : List Char → Res (List Char)} {line x r : List Char} (hn : nextParam stdDelims ex line = .ok (some (x, r)))
    (hx : NoOption x) (nb : Bool) (cur : FDbl) (hb : cur.nonzero = true ∨ (strtodF x).2 ≠ []) : timeoutScan ex nb cur line = .ok .bad := by
  have h1 : ¬ stricmp x ['/', '?'] = 0 := by rw [stricmp_zero]; exact fun h => hx.1 (by simpa [fold] using h)
  have h2 : ¬ stricmp x ['/', 'T'] = 0 := by rw [stricmp_zero]; exact fun h => hx.2.1 (by simpa [fold] using h)
  have h3 : ¬ stricmp x ['/', 'N', 'O', 'B', 'R', 'E', 'A', 'K'] = 0 := by rw [stricmp_zero]; exact fun h => hx.2.2 (by simpa [fold] using h)
  rw [timeoutScan.eq_1, hn]
  simp only
  rw [if_neg h1, if_neg h2, if_neg h3]
  split
  · rfl
  · rw [if_pos (hb.resolve_left (by assumption))]

/-- After options and at most one duration, a word that does not begin as a number is refused, and so is any second word after a duration other
than 0: nothing is waited for. -/
theorem C92_refused {q : Char → Bool} (hq : q '"' = true) (hc : q '^' = true) (hp : q '%' = true) (he : q '!' = true) (c : Ctx)
    {line x : List Char} {as more : List (List Char)} {nb : Bool} {s : Option (List Char)} (h : ParamLine q line (as ++ x :: more))
    (ha : TimeoutLine as nb s) (hx : NoOption x)
    (hb : (∃ ch r, x = ch :: r ∧ ch ∉ " \t\n\r0123456789+-.nNiI".toList ∧ ch.toNat ≠ 11 ∧ ch.toNat ≠ 12) ∨
      ∃ t m f, s = some t ∧ Seconds t m f ∧ m ≠ 0 ∧ f ≤ 300) (key : Option Nat) : cmdTimeout c.ex key line = .ok (4, 0) := by
  obtain ⟨l, h1, h2⟩ := scan_prefix c ha (x :: more) line false (.fin false 0) (kept_line hq hc hp he h) (fun _ => rfl)
  rcases kept_next c h1 with ⟨e, -⟩ | ⟨a', as', t', e, hn, hk', hl⟩
  · simp at e
  · simp only [List.cons.injEq] at e
    obtain ⟨rfl, rfl⟩ := e
    unfold cmdTimeout
    rw [h2, word_bad hn hx]
    · rfl
    · rcases hb with ⟨ch, r, rfl, g1, g2, g3⟩ | ⟨t, m, f, rfl, g1, g2, g3⟩
      · right; rw [strtod_nothing g1 g2 g3]; simp
      · left
        exact seconds_nonzero g1 g2 g3

/-- `/?` before any wrong word shows the help, without waiting. -/
theorem C92_help {q : Char → Bool} (hq : q '"' = true) (hc : q '^' = true) (hp : q '%' = true) (he : q '!' = true) (c : Ctx)
    {line : List Char} {as more : List (List Char)} {nb : Bool} {s : Option (List Char)} (h : ParamLine q line (as ++ ['/', '?'] :: more))
    (ha : TimeoutLine as nb s) (key : Option Nat) : cmdTimeout c.ex key line = .ok (0, 0) := by
  obtain ⟨l, h1, h2⟩ := scan_prefix c ha (['/', '?'] :: more) line false (.fin false 0) (kept_line hq hc hp he h) (fun _ => rfl)
  rcases kept_next c h1 with ⟨e, -⟩ | ⟨a', as', t', e, hn, hk', hl⟩
  · simp at e
  · simp only [List.cons.injEq] at e
    obtain ⟨rfl, rfl⟩ := e
    unfold cmdTimeout
    rw [h2, timeoutScan.eq_1, hn]
    simp only
    rw [if_pos (by decide)]
    rfl

/-- A duration below 0: with `/NOBREAK` TIMEOUT never ends by itself; without, it waits for a key, and ends within a tenth of a second of it. -/
theorem C92_negative {q : Char → Bool} (hq : q '"' = true) (hc : q '^' = true) (hp : q '%' = true) (he : q '!' = true) (c : Ctx)
    {line t : List Char} {as : List (List Char)} {nb : Bool} {m f : Nat} (h : ParamLine q line (as ++ ['-' :: t])) (ha : TimeoutLine as nb none)
    (ht : Seconds t m f) (hm : m ≠ 0) (hf : f ≤ 300) :
    (nb = true → ∀ key, cmdTimeout c.ex key line = .hang) ∧ cmdTimeout c.ex none line = .hang ∧
      (nb = false → ∀ T, ∃ e, cmdTimeout c.ex (some T) line = .ok (0, e) ∧ T ≤ e ∧ e < T + 100) := by
  obtain ⟨l, h1, h2⟩ := scan_prefix c ha ['-' :: t] line false (.fin false 0) (kept_line hq hc hp he h) (fun _ => rfl)
  rcases kept_next c h1 with ⟨e, -⟩ | ⟨a', as', t', e, hn, hk', hl⟩
  · simp at e
  · simp only [List.cons.injEq] at e
    obtain ⟨rfl, rfl⟩ := e
    obtain ⟨n, -, hr, hz⟩ := strtod_read ht hm hf
    rw [word_step hn hl (by simp), if_neg (by simp [askedFor, FDbl.nonzero]), hr, if_neg (by simp), timeout_end c hk'] at h2
    simp only [Bool.false_or] at h2
    have hw : ∀ b key, timeoutWait b key (fMag true n) = match key with
        | some k => if b then .hang else .ok (timeoutKey k 0)
        | none => .hang := by
      intro b key
      rcases fMag_cases true n with hn | hn <;> rw [hn]
      · rfl
      · cases n with
        | zero => exact absurd rfl hz
        | succ n => rfl
    refine ⟨?_, ?_, ?_⟩
    · rintro rfl key
      unfold cmdTimeout
      rw [h2]
      simp only [Res.ok_bind, hw]
      cases key <;> rfl
    · unfold cmdTimeout
      rw [h2]
      simp only [Res.ok_bind, hw]
      rfl
    · rintro rfl T
      have := timeoutKey_ends T 0
      exact ⟨timeoutKey T 0, cmd_wait h2 _ (by rw [hw]; rfl), by omega, by omega⟩

/-! ### Violations -/

/-- Violation: the duration may be missing; nothing is waited for, and there is no error. -/
theorem C92_missing {q : Char → Bool} (hq : q '"' = true) (hc : q '^' = true) (hp : q '%' = true) (he : q '!' = true) (c : Ctx)
    {line : List Char} {as : List (List Char)} {nb : Bool} (h : ParamLine q line as) (ha : TimeoutLine as nb none) (key : Option Nat) :
    cmdTimeout c.ex key line = .ok (0, 0) := by
  refine cmd_wait (scan_line c (kept_line hq hc hp he h) ha) key ?_
  simp only [askedFor, Option.map_none, Option.getD_none, timeoutWait]
  rw [timeoutLoop.eq_1, if_pos rfl]

/-- The result depends on the parameters only. -/
theorem scan_params (c : Ctx) {as : List (List Char)} : ∀ {l l' : List Char} (nb : Bool) (cur : FDbl), Kept l as → Kept l' as →
    timeoutScan c.ex nb cur l = timeoutScan c.ex nb cur l' := by
  induction as with
  | nil => intro l l' nb cur h h'; rw [timeout_end c h, timeout_end c h']
  | cons a as ih =>
    intro l l' nb cur h h'
    rcases kept_next c h with ⟨e, -⟩ | ⟨b, bs, t, e, hn, hk, hl⟩
    · simp at e
    · rcases kept_next c h' with ⟨e', -⟩ | ⟨b', bs', t', e', hn', hk', hl'⟩
      · simp at e'
      · cases e
        cases e'
        rw [timeoutScan.eq_1, hn, timeoutScan.eq_1 _ _ _ l', hn']
        simp only [if_pos hl, if_pos hl', ih _ _ hk hk']

/-- Violation: a duration of 0, or an empty text, does not count: another duration may follow, and is waited for. -/
theorem C92_zero {q : Char → Bool} (hq : q '"' = true) (hc : q '^' = true) (hp : q '%' = true) (he : q '!' = true) (c : Ctx)
    {line line' z : List Char} {as : List (List Char)} (h : ParamLine q line (z :: as)) (h' : ParamLine q line' as)
    (hz : z = [] ∨ ∃ f, Seconds z 0 f) (key : Option Nat) : cmdTimeout c.ex key line = cmdTimeout c.ex key line' := by
  have hk := kept_line hq hc hp he h
  have hk' := kept_line hq hc hp he h'
  have hzs : strtodF z = (.fin false 0, []) ∧ z.head? ≠ some '/' := by
    rcases hz with rfl | ⟨f, hf⟩
    · exact ⟨by decide, by simp⟩
    · refine ⟨?_, digit_not_slash hf⟩
      rw [strtod_seconds hf, Nat.zero_mul]
      have : roundRatio 0 (10 ^ f) = 0 := by simp [roundRatio, roundDiv]
      rw [this, fMag_small false (Nat.zero_le _)]
  unfold cmdTimeout
  rcases kept_next c hk with ⟨e, -⟩ | ⟨b, bs, t, e, hn, hk1, hl⟩
  · simp at e
  · cases e
    rw [word_step hn hl hzs.2, if_neg (by decide), hzs.1, if_neg (by simp), scan_params c false _ hk1 hk']

/-- Violation: `TIMEOUT /NOBREAK 0.3` lasts less than asked. -/
theorem C92_short {q : Char → Bool} (hq : q '"' = true) (hc : q '^' = true) (hp : q '%' = true) (he : q '!' = true) (c : Ctx)
    {line : List Char} (h : ParamLine q line ["/NOBREAK".toList, "0.3".toList]) (key : Option Nat) : cmdTimeout c.ex key line = .ok (0, 299) := by
  refine cmd_wait (scan_line c (kept_line hq hc hp he h) (.nobreak (by decide) (.seconds (.point (a := ['0']) (b := ['3']) (by simp) (by decide)) .nil))) key ?_
  simp only [askedFor, Option.map_some, Option.getD_some]
  have hs : strtodF "0.3".toList = (.fin false (roundRatio (3 * fOne) 10), []) := by decide +kernel
  rw [hs]
  show timeoutLoop true key _ 0 = _
  rw [timeoutLoop_still (.inl rfl)]
  decide +kernel

theorem letters_nNiI : ∀ a ∈ "nNiI".toList, isSpace a = false ∧ a ≠ '-' ∧ a ≠ '+' ∧ a ≠ '0' ∧ a ≠ '/' := by decide

theorem word_read {x w : List Char} (hw : w = ['n', 'a', 'n'] ∨ w = ['i', 'n', 'f']) (hx : x.map Char.toLower = w) :
    strtodF x = (if w = ['n', 'a', 'n'] then .nan else .inf false, []) ∧ x.head? ≠ some '/' := by
  have hl : x.length = 3 := by
    rw [← List.length_map (f := Char.toLower), hx]
    rcases hw with rfl | rfl <;> rfl
  match x, hl with
  | [a, b, d], _ =>
    have ha : a ∈ "nNiI".toList := by
      simp only [List.map_cons] at hx
      rcases hw with rfl | rfl
      · exact lower_in (.inr rfl) (List.cons.inj hx).1
      · exact lower_in (.inl rfl) (List.cons.inj hx).1
    obtain ⟨h1, h2, h3, h4, h5⟩ := letters_nNiI a ha
    refine ⟨?_, by simpa using h5⟩
    have hword : scanRealWord false [a, b, d] = some (if w = ['n', 'a', 'n'] then .nan else .inf false, []) := by
      unfold scanRealWord
      simp only [List.take_succ_cons, List.take_nil, List.take_zero, hx]
      rcases hw with rfl | rfl <;> rfl
    have hreal : scanReal false [a, b, d] = some (if w = ['n', 'a', 'n'] then .nan else .inf false, []) := by
      unfold scanReal
      split
      · rename_i heq; cases heq; exact absurd rfl h4
      · rw [hword]; rfl
    unfold strtodF
    rw [List.dropWhile_cons_of_neg (by simp [h1])]
    split
    · rename_i heq; cases heq; exact absurd rfl h2
    · rename_i heq; cases heq; exact absurd rfl h3
    · rw [hreal]; rfl

/-- Violation: `nan` is accepted as a duration, and `inf` as one that never ends, in any case of the letters. -/
theorem C92_words {q : Char → Bool} (hq : q '"' = true) (hc : q '^' = true) (hp : q '%' = true) (he : q '!' = true) (c : Ctx)
    {line x : List Char} {as : List (List Char)} {nb : Bool} (h : ParamLine q line (as ++ [x])) (ha : TimeoutLine as nb none) :
    (x.map Char.toLower = ['n', 'a', 'n'] → ∀ key, cmdTimeout c.ex key line = .ok (0, 0)) ∧
      (x.map Char.toLower = ['i', 'n', 'f'] → cmdTimeout c.ex none line = .hang ∧ (nb = true → ∀ key, cmdTimeout c.ex key line = .hang)) := by
  obtain ⟨l, h1, h2⟩ := scan_prefix c ha [x] line false (.fin false 0) (kept_line hq hc hp he h) (fun _ => rfl)
  rcases kept_next c h1 with ⟨e, -⟩ | ⟨a', as', t', e, hn, hk', hl⟩
  · simp at e
  · simp only [List.cons.injEq] at e
    obtain ⟨rfl, rfl⟩ := e
    have hw : ∀ w, (w = ['n', 'a', 'n'] ∨ w = ['i', 'n', 'f']) → x.map Char.toLower = w →
        strtodF x = (if w = ['n', 'a', 'n'] then .nan else .inf false, []) ∧ x.head? ≠ some '/' := by
      intro w hw hx
      exact word_read hw hx
    refine ⟨?_, ?_⟩
    · intro hx key
      obtain ⟨g1, g2⟩ := hw _ (.inl rfl) hx
      rw [word_step hn hl g2, if_neg (by simp [askedFor, FDbl.nonzero]), g1, if_neg (by simp), timeout_end c hk'] at h2
      exact cmd_wait h2 key rfl
    · intro hx
      obtain ⟨g1, g2⟩ := hw _ (.inr rfl) hx
      rw [word_step hn hl g2, if_neg (by simp [askedFor, FDbl.nonzero]), g1, if_neg (by simp), timeout_end c hk'] at h2
      refine ⟨?_, ?_⟩
      · unfold cmdTimeout
        rw [h2]
        rfl
      · rintro rfl key
        unfold cmdTimeout
        rw [h2]
        cases key <;> rfl

/-! ### Examples -/

/-- Only the quoted characters matter. -/
def timeoutQuoted (c : Char) : Bool := c == '"' || c == '^' || c == '%' || c == '!'

example : ∃ D, D * 10 ^ 1 < 1000 * 25 + 10 ^ 1 ∧ 1000 * 25 < (D + 2) * 10 ^ 1 ∧
    (∀ c : Ctx, cmdTimeout c.ex none " /t 2.5".toList = .ok (0, D)) := by
  have hl : ParamLine timeoutQuoted " /t 2.5".toList ["/t".toList, "2.5".toList] :=
    .cons (w := [' ']) (x := ['/', 't']) (b := ' ') (rest := "2.5".toList) (by decide) (.word (by decide) (by decide) (by decide) (by decide)) (by decide)
      (.last (w := []) (x := "2.5".toList) (by simp) (.word (by decide) (by decide) (by decide) (by decide)))
  have hs : Seconds "2.5".toList 25 1 := .point (a := ['2']) (b := ['5']) (by simp) (by decide)
  have ha : TimeoutLine ["/t".toList, "2.5".toList] false (some "2.5".toList) := .t (by decide) (.seconds hs .nil)
  have hz : ∀ c : Ctx, ∃ D, D * 10 ^ 1 < 1000 * 25 + 10 ^ 1 ∧ 1000 * 25 < (D + 2) * 10 ^ 1 ∧ cmdTimeout c.ex none " /t 2.5".toList = .ok (0, D) := by
    intro c
    obtain ⟨D, h1, h2, h3, -⟩ := C92_wait_partial (by decide) (by decide) (by decide) (by decide) c hl ha hs (by decide)
    exact ⟨D, h1, h2, h3 none (.inr rfl)⟩
  refine ⟨2499, by decide, by decide, ?_⟩
  intro c
  refine cmd_wait (scan_line c (kept_line (q := timeoutQuoted) (by decide) (by decide) (by decide) (by decide) hl) ha) none ?_
  have hs' : strtodF "2.5".toList = (.fin false (roundRatio (25 * fOne) 10), []) := by decide +kernel
  simp only [askedFor, Option.map_some, Option.getD_some]
  rw [hs']
  decide +kernel

example : timeoutWait false (some 1234) (.fin false (5 * fOne)) = .ok 1300 := by decide +kernel
example : timeoutWait true (some 1234) (.fin false (2 * fOne)) = .ok 1999 := by decide +kernel
example : timeoutWait false none (.fin true fOne) = .hang := by decide +kernel
/-- 2^53 seconds never end: a tenth of a second is lost by rounding. -/
example : timeoutWait false none (.fin false (2 ^ 53 * fOne)) = .hang := by decide +kernel
example : NoOption "5x".toList ∧ NoOption "/x".toList ∧ NoOption "abc".toList := by decide +kernel
example : strtodF "1e3 ".toList = (.fin false (1000 * fOne), [' ']) := by decide +kernel
example : strtodF "0x1p-1".toList = (.fin false (2 ^ 1073), []) := by decide +kernel
example : strtodF "1e999".toList = (.inf false, []) := by decide +kernel

end PBat
