import Verif.Lemmas.Parse
/-
Splitting of lines with blocks.
-/
namespace PBat
open Spec

/-- Text that leaves the scan outside quotes and escapes. -/
structure Neutral (s : List Char) : Prop where
  even : quotesBefore s s.length % 2 = 0
  free : Free s s.length

theorem Neutral.append {u v : List Char} (hu : Neutral u) (hv : Neutral v) : Neutral (u ++ v) := by
  refine ⟨?_, ?_⟩
  · rw [List.length_append, quotesBefore_append hu.free]
    have := hu.even
    have := hv.even
    omega
  · rw [List.length_append, Free_append hu.free]
    exact hv.free

theorem Neutral.nil : Neutral [] := ⟨rfl, by simp [Free, caretsBefore]⟩

theorem Neutral.one {c : Char} (h1 : c ≠ '^') (h2 : c ≠ '"') : Neutral [c] :=
  ⟨by simp [quotesBefore, List.range, List.range.loop, QuoteAt, h2], by simp [Free, caretsBefore, h1]⟩

theorem Neutral.cons {c : Char} (h1 : c ≠ '^') (h2 : c ≠ '"') {s : List Char} (h : Neutral s) : Neutral (c :: s) :=
  (Neutral.one h1 h2).append h

theorem Neutral.margin {w : List Char} (h : ∀ c ∈ w, Margin c) : Neutral w := by
  induction w with
  | nil => exact .nil
  | cons c w ih =>
    have := margin_other (h c (by simp))
    exact .cons this.1 this.2.1 (ih (fun d hd => h d (by simp [hd])))

theorem Neutral.op (o : Op) : Neutral o.text := by cases o <;> constructor <;> decide

theorem Neutral.closed {p : Char → Bool} {s : List Char} (h : Closed p s) : Neutral s := ⟨h.even, h.free⟩

theorem Neutral.plain {s : List Char} (h : Plain s) : Neutral s := ⟨h.even, h.free⟩

theorem Neutral.body {strict : Bool} {b : List Char} (h : Body strict b) : Neutral b :=
  Body.rec (motive_1 := fun b _ => Neutral b) (motive_2 := fun _ l _ => Neutral l) (motive_3 := fun t _ => Neutral t)
    (fun _ ih => ih)
    (fun {g l c b} _ hc _ ihl ihb => ihl.append (by
      refine .cons ?_ ?_ ihb <;> rcases hc with rfl | rfl | rfl | ⟨-, rfl | rfl | rfl | rfl | rfl⟩ <;> decide))
    (fun hw _ ih => (Neutral.margin hw).append (.cons (by decide) (by decide) (ih.append (.one (by decide) (by decide)))))
    (fun hw _ _ hcl => (Neutral.margin hw).append (.closed hcl))
    (fun hw _ _ ih => (Neutral.margin hw).append ih)
    (fun ht => .closed ht)
    (fun ht _ _ ihb ihc => (Neutral.closed ht).append (.cons (by decide) (by decide) (ihb.append (.cons (by decide) (by decide) ihc))))
    h

theorem Neutral.tail {c : List Char} (h : Tail c) : Neutral c := by
  induction h with
  | text h => exact .plain h
  | block ht hb _ ih =>
    exact (Neutral.plain ht).append (.cons (by decide) (by decide) ((Neutral.body hb).append (.cons (by decide) (by decide) ih)))

/-! ### Text with `>&` -/

/-- `Plain` for a set of characters, without the conditions on lines. -/
structure Amp (p : Char → Bool) (t : List Char) : Prop where
  amp : ∀ i, Hit p t i ∧ OutQuotes t i →
    t[i]? = some '&' ∧ 0 < i ∧ t[i - 1]? = some '>' ∧ (t[i + 1]? = some '1' ∨ t[i + 1]? = some '2')
  neutral : Neutral t

theorem OutQuotes_append {u : List Char} (hu : Neutral u) (v : List Char) (j : Nat) :
    OutQuotes (u ++ v) (u.length + j) ↔ OutQuotes v j := by
  unfold OutQuotes
  rw [quotesBefore_append hu.free, QuoteAt_append hu.free]
  have := hu.even
  have : (quotesBefore u u.length + quotesBefore v j) % 2 = quotesBefore v j % 2 := by omega
  rw [this]

theorem Amp_drop {p : Char → Bool} {u v : List Char} (h : Amp p (u ++ v)) (hu : Neutral u)
    (hgt : u.getLast? ≠ some '>') : Amp p v := by
  refine ⟨?_, ?_, ?_⟩
  · intro i hi
    have h1 := h.amp (u.length + i) ⟨(Hit_append hu.free v i).2 hi.1, (OutQuotes_append hu v i).2 hi.2⟩
    obtain ⟨h1, h2, h3, h4⟩ := h1
    have hip : 0 < i := by
      rcases Nat.eq_zero_or_pos i with rfl | h5
      · exfalso
        apply hgt
        rw [List.getLast?_eq_getElem?]
        rw [Nat.add_zero, List.getElem?_append_left (by omega)] at h3
        exact h3
      · exact h5
    refine ⟨?_, hip, ?_, ?_⟩
    · rwa [List.getElem?_append_right (by omega), Nat.add_sub_cancel_left] at h1
    · rw [List.getElem?_append_right (by omega)] at h3
      have : u.length + i - 1 - u.length = i - 1 := by omega
      rwa [this] at h3
    · rw [List.getElem?_append_right (by omega)] at h4
      have : u.length + i + 1 - u.length = i + 1 := by omega
      rwa [this] at h4
  · have := h.neutral.even
    rw [List.length_append, quotesBefore_append hu.free] at this
    have := hu.even
    omega
  · have := h.neutral.free
    rwa [List.length_append, Free_append hu.free] at this

/-- Either there is no such character outside quotes, or the text splits at a first `>&`. -/
theorem Amp_cases {p : Char → Bool} {t : List Char} (h : Amp p t) :
    (∀ i, ¬ (Hit p t i ∧ OutQuotes t i)) ∨
    ∃ t1 t2, t = t1 ++ '&' :: t2 ∧ (∀ i, ¬ (Hit p t1 i ∧ OutQuotes t1 i)) ∧ Neutral t1 ∧ t1.getLast? = some '>' ∧
      Amp p t2 ∧ (t2.head? = some '1' ∨ t2.head? = some '2') ∧ p '&' = true := by
  have hf := searchOutQuotes_spec p t
  cases hs : searchOutQuotes p t with
  | none => rw [hs] at hf; exact .inl hf
  | some i =>
    rw [hs] at hf
    right
    obtain ⟨hi, hmin⟩ := hf
    obtain ⟨h1, h2, h3, h4⟩ := h.amp i hi
    obtain ⟨hsp, hlen⟩ := split_at h1
    have hlt := Hit_lt hi.1
    have hn1 : Neutral (t.take i) := by
      refine ⟨?_, ?_⟩
      · have := hi.2.1
        rw [hsp, quotesBefore_prefix _ _ i (by omega)] at this
        rw [hlen]
        exact this
      · have := hi.1.2
        rw [hsp] at this
        unfold Free at this ⊢
        rw [show caretsBefore (t.take i ++ '&' :: t.drop (i + 1)) i = caretsBefore (t.take i) (t.take i).length from by
          unfold caretsBefore
          rw [List.take_left' hlen, List.take_length]] at this
        exact this
    refine ⟨t.take i, t.drop (i + 1), hsp, ?_, hn1, ?_, ?_, ?_, ?_⟩
    · intro j hj
      have hj' : j < (t.take i).length := Hit_lt hj.1
      apply hmin j (by omega)
      rw [hsp, Hit_prefix _ _ _ _ hj', OutQuotes_prefix _ hj']
      exact hj
    · rw [List.getLast?_eq_getElem?, hlen, List.getElem?_take_of_lt (by omega)]
      exact h3
    · refine Amp_drop (u := t.take i ++ ['&']) ?_ (hn1.append (.one (by decide) (by decide))) (by simp)
      rw [List.append_assoc, List.singleton_append, ← hsp]
      exact h
    · rw [List.head?_drop]; exact h4
    · obtain ⟨⟨⟨c, hc, hp⟩, -⟩, -⟩ := hi
      rw [h1] at hc
      cases hc
      exact hp

theorem Spec.Plain.toAmp {t : List Char} (h : Plain t) : Amp Struct t := ⟨h.amp, .plain h⟩

theorem Amp.mono {p q : Char → Bool} (hpq : ∀ c, q c = true → p c = true) {t : List Char} (h : Amp p t) : Amp q t := by
  refine ⟨?_, h.neutral⟩
  rintro i ⟨⟨⟨c, hc, hq⟩, hf⟩, ho⟩
  exact h.amp i ⟨⟨⟨c, hc, hpq c hq⟩, hf⟩, ho⟩

theorem isOp_struct (c : Char) (h : isOp c = true) : Struct c = true := by
  simp only [isOp, Bool.or_eq_true, beq_iff_eq] at h
  rcases h with rfl | rfl <;> decide

/-- A closing parenthesis before the text changes nothing for the operators. -/
theorem Amp_paren {t : List Char} (h : Amp isOp t) : Amp isOp (')' :: t) := by
  have hn : Neutral [')'] := .one (by decide) (by decide)
  refine ⟨?_, .cons (by decide) (by decide) h.neutral⟩
  intro i hi
  cases i with
  | zero =>
    obtain ⟨⟨⟨c, hc, hp⟩, -⟩, -⟩ := hi
    simp at hc
    subst hc
    exact absurd hp (by decide)
  | succ i =>
    have e : i + 1 = [')'].length + i := by simp [Nat.add_comm]
    rw [e] at hi
    obtain ⟨h1, h2, h3, h4⟩ := h.amp i ⟨(Hit_append (u := [')']) hn.free t i).1 hi.1, (OutQuotes_append hn t i).1 hi.2⟩
    refine ⟨by simpa using h1, by omega, ?_, by simpa using h4⟩
    obtain ⟨k, rfl⟩ : ∃ k, i = k + 1 := ⟨i - 1, by omega⟩
    simpa using h3

/-! ### The next block -/

/-- Both parentheses. -/
def isParen (c : Char) : Bool := c == '(' || c == ')'

theorem searchOut_skip {p : Char → Bool} {u : List Char} (hu : Neutral u) (hno : ∀ i, ¬ (Hit p u i ∧ OutQuotes u i))
    (x : List Char) : searchOutQuotes p (u ++ x) = (searchOutQuotes p x).map (· + u.length) := by
  apply IsFirst_unique (searchOutQuotes_spec p (u ++ x))
  refine IsFirst_shift (searchOutQuotes_spec p x) ?_ ?_
  · intro i hi
    rw [Hit_prefix _ _ _ _ hi, OutQuotes_prefix _ hi]
    exact hno i
  · intro i
    rw [Hit_append hu.free, OutQuotes_append hu]

theorem innerBegin_skip {u : List Char} (hu : Neutral u) (hno : ∀ i, ¬ (Hit isParen u i ∧ OutQuotes u i)) (x : List Char) :
    innerBegin (u ++ x) = innerBegin x := by
  unfold innerBegin
  have h := searchOut_skip hu hno x
  have e : (fun c : Char => c == '(' || c == ')') = isParen := rfl
  rw [e, h]
  cases searchOutQuotes isParen x with
  | none => rfl
  | some i =>
    simp only [Option.map_some]
    rw [List.getElem?_append_right (by omega), Nat.add_sub_cancel]
    split
    · rw [List.drop_append, Nat.add_sub_cancel, List.drop_eq_nil_of_le (by omega), List.nil_append]
    · rfl

theorem searchOut_head {p : Char → Bool} (c : Char) (x : List Char) (h1 : c ≠ '"') (h2 : p c = true) :
    searchOutQuotes p (c :: x) = some 0 := by
  apply IsFirst_unique (searchOutQuotes_spec p (c :: x))
  refine ⟨⟨⟨⟨c, rfl, h2⟩, by simp [Free, caretsBefore]⟩, by simp [quotesBefore], ?_⟩, by simp⟩
  rintro ⟨h, -⟩
  simp at h
  exact h1 h

theorem innerBegin_open (x : List Char) : innerBegin ('(' :: x) = some ('(' :: x) := by
  unfold innerBegin
  rw [searchOut_head _ _ (by decide) (by decide)]
  simp

theorem innerBegin_length {s b : List Char} (h : innerBegin s = some b) : b.length ≤ s.length :=
  (innerBegin_suffix h).1.length_le

theorem noParen_amp {t : List Char} (h : Amp Struct t) : ∀ i, ¬ (Hit isParen t i ∧ OutQuotes t i) := by
  rintro i ⟨⟨⟨c, hc, hp⟩, hf⟩, ho⟩
  have hs : Struct c = true := by
    simp only [isParen, Bool.or_eq_true, beq_iff_eq] at hp
    rcases hp with rfl | rfl <;> decide
  have := (h.amp i ⟨⟨⟨c, hc, hs⟩, hf⟩, ho⟩).1
  rw [hc] at this
  cases this
  exact absurd hp (by decide)

theorem noParen_op (o : Op) : ∀ i, ¬ (Hit isParen o.text i ∧ OutQuotes o.text i) := by
  rintro i ⟨⟨⟨c, hc, hp⟩, -⟩, -⟩
  have := List.mem_of_getElem? hc
  cases o <;> simp [Op.text] at this <;> subst this <;> exact absurd hp (by decide)

/-! ### What follows a command -/

/-- What follows a command with text `full`, and the commands it yields. -/
def Cont (full R : List Char) (items : List (NodeType × List Char)) : Prop :=
  (R = [] ∧ items = []) ∨
  ∃ o W, R = o.text ++ W ∧ W.head? ≠ some '&' ∧ W.head? ≠ some '|' ∧ Precedes full o ∧
    opsLoop (nodeOf o) [] W (innerBegin W) = .ok (some items)

theorem Op.text_cons (o : Op) : ∃ c r, o.text = c :: r ∧ isOp c = true := by
  cases o <;> exact ⟨_, _, rfl, by decide⟩

theorem opKind_op (o : Op) {W : List Char} (h1 : W.head? ≠ some '&') (h2 : W.head? ≠ some '|') {c : Char} {r : List Char}
    (h : o.text ++ W = c :: r) : opKind c r = (nodeOf o, W) ∧ (c = '&' ↔ o = .seq ∨ o = .and) := by
  cases o <;> simp [Op.text] at h <;> obtain ⟨rfl, rfl⟩ := h <;> simp [opKind, nodeOf, h1, h2]

/-- Text without operators followed by `R`: one command, then what `R` yields. -/
theorem opsLoop_end {ty : NodeType} {cmd t R : List Char} {items : List (NodeType × List Char)} (ht : Neutral t)
    (hno : ∀ i, ¬ (Hit isOp t i ∧ OutQuotes t i)) (hR : Cont (cmd ++ t) R items) :
    opsLoop ty cmd (t ++ R) (innerBegin R) = .ok (some ((ty, cmd ++ t) :: items)) := by
  have hskip := searchOut_skip ht hno R
  rcases hR with ⟨rfl, rfl⟩ | ⟨o, W, rfl, hw1, hw2, hfit, hW⟩
  · rw [opsLoop.eq_1]
    have h0 : searchOutQuotes isOp [] = none := by
      cases h : searchOutQuotes isOp [] with
      | none => rfl
      | some i => exact absurd (searchOutQuotes_lt h) (by simp)
    split
    · simp
    · next h => rw [hskip, h0] at h; exact absurd h (by simp)
  · obtain ⟨c, r, hc, hop⟩ := Op.text_cons o
    obtain ⟨hk, hamp⟩ := opKind_op o hw1 hw2 (show o.text ++ W = c :: (r ++ W) by rw [hc]; rfl)
    have hcq : c ≠ '"' := by rintro rfl; exact absurd hop (by decide)
    have hfound : searchOutQuotes isOp (t ++ (o.text ++ W)) = some t.length := by
      rw [hskip, hc, List.cons_append, searchOut_head _ _ hcq hop]
      simp
    have hib : innerBegin (o.text ++ W) = innerBegin W := innerBegin_skip (Neutral.op o) (noParen_op o) W
    rw [opsLoop.eq_1]
    split
    · next h => rw [hfound] at h; exact absurd h (by simp)
    · next i hi =>
      rw [hfound] at hi
      cases hi
      split
      · next h => rw [hc] at h; simp at h
      · next c' r' h =>
        have h : c' = c ∧ r' = r ++ W := by rw [hc] at h; simp at h; exact ⟨h.1.symm, h.2.symm⟩
        obtain ⟨rfl, rfl⟩ := h
        rw [hib]
        rw [if_neg]
        · rw [if_neg]
          · rw [hk]
            simp only [hW]
            simp
          · rintro ⟨h3, h4⟩
            have h4 : (cmd ++ t).getLast? = some '>' := by simpa using h4
            exact hfit (hamp.1 h3) h4
        · cases hb : innerBegin W with
          | none => simp [pastBlock]
          | some b =>
            have := innerBegin_length hb
            simp [pastBlock]
            omega

theorem pastBlock_inner {tok x : List Char} (h : x.length < tok.length) : ¬ pastBlock tok (innerBegin x) = true := by
  cases hb : innerBegin x with
  | none => simp [pastBlock]
  | some b =>
    have := innerBegin_length hb
    simp [pastBlock]
    omega

/-- One `>&` is passed. -/
theorem opsLoop_amp {ty : NodeType} {cmd t1 y x : List Char} (h1 : Neutral t1)
    (hno : ∀ i, ¬ (Hit isOp t1 i ∧ OutQuotes t1 i)) (hgt : t1.getLast? = some '>') (hx : x.length ≤ y.length) :
    opsLoop ty cmd (t1 ++ '&' :: y) (innerBegin x) = opsLoop ty (cmd ++ t1 ++ ['&']) y (innerBegin x) := by
  have hfound : searchOutQuotes isOp (t1 ++ '&' :: y) = some t1.length := by
    rw [searchOut_skip h1 hno, searchOut_head _ _ (by decide) (by decide)]
    simp
  rw [opsLoop.eq_1]
  split
  · next h => rw [hfound] at h; exact absurd h (by simp)
  · next i hi =>
    rw [hfound] at hi
    cases hi
    split
    · next h => simp at h
    · next c' r' h =>
      have h : c' = '&' ∧ r' = y := by simp at h; exact ⟨h.1.symm, h.2.symm⟩
      obtain ⟨rfl, rfl⟩ := h
      rw [if_neg (pastBlock_inner (by simp; omega)), if_pos]
      · simp
      · refine ⟨rfl, ?_⟩
        simp [List.getLast?_append, hgt]

theorem Amp_length {t1 t2 : List Char} {c : Char} : t2.length < (t1 ++ c :: t2).length := by simp; omega

/-- The last text of a command. -/
theorem opsLoop_text {ty : NodeType} {R : List Char} {items : List (NodeType × List Char)} :
    ∀ (n : Nat) (t : List Char), t.length ≤ n → Amp isOp t → ∀ cmd, Cont (cmd ++ t) R items →
    opsLoop ty cmd (t ++ R) (innerBegin R) = .ok (some ((ty, cmd ++ t) :: items)) := by
  intro n
  induction n with
  | zero =>
    intro t ht ha cmd hR
    have : t = [] := List.length_eq_zero_iff.1 (by omega)
    subst this
    exact opsLoop_end .nil (by simp [Hit]) hR
  | succ n ih =>
    intro t ht ha cmd hR
    rcases Amp_cases ha with hno | ⟨t1, t2, rfl, hno, hn1, hgt, ha2, -, -⟩
    · exact opsLoop_end ha.neutral hno hR
    · have hl := Amp_length (t1 := t1) (t2 := t2) (c := '&')
      rw [List.append_assoc, List.cons_append, opsLoop_amp hn1 hno hgt (by simp),
        ih t2 (by omega) ha2 (cmd ++ t1 ++ ['&']) (by simpa using hR)]
      simp

/-- Text followed by a block: either nothing more is cut, or the loop goes on at the closing parenthesis. -/
theorem opsLoop_block {ty : NodeType} {b c R : List Char} (hb : Body false b) (hc : Neutral c)
    {items : List (NodeType × List Char)} :
    ∀ (n : Nat) (t : List Char), t.length ≤ n → Amp isOp t → ∀ cmd, Cont (cmd ++ (t ++ '(' :: (b ++ ')' :: c))) R items →
    (∀ cmd', cmd' ++ ')' :: c = cmd ++ (t ++ '(' :: (b ++ ')' :: c)) →
      opsLoop ty cmd' (')' :: (c ++ R)) (innerBegin (c ++ R)) =
        .ok (some ((ty, cmd' ++ ')' :: c) :: items))) →
    opsLoop ty cmd (t ++ '(' :: (b ++ ')' :: (c ++ R))) (innerBegin ('(' :: (b ++ ')' :: (c ++ R)))) =
      .ok (some ((ty, cmd ++ (t ++ '(' :: (b ++ ')' :: c))) :: items)) := by
  -- the block reached with no `>&` left before it
  have base : ∀ (t : List Char), Neutral t → (∀ i, ¬ (Hit isOp t i ∧ OutQuotes t i)) → ∀ cmd,
      Cont (cmd ++ (t ++ '(' :: (b ++ ')' :: c))) R items →
      (∀ cmd', cmd' ++ ')' :: c = cmd ++ (t ++ '(' :: (b ++ ')' :: c)) →
        opsLoop ty cmd' (')' :: (c ++ R)) (innerBegin (c ++ R)) =
          .ok (some ((ty, cmd' ++ ')' :: c) :: items))) →
      opsLoop ty cmd (t ++ '(' :: (b ++ ')' :: (c ++ R))) (innerBegin ('(' :: (b ++ ')' :: (c ++ R)))) =
        .ok (some ((ty, cmd ++ (t ++ '(' :: (b ++ ')' :: c))) :: items)) := by
    intro t htn hno cmd hR hgo
    have hend := blockEnd_body hb (c ++ R)
    rw [opsLoop.eq_1]
    split
    · next h =>
      -- no operator at all: nothing can follow
      rcases hR with ⟨rfl, rfl⟩ | ⟨o, W, rfl, -⟩
      · simp
      · exfalso
        have hneu : Neutral (t ++ '(' :: (b ++ ')' :: c)) :=
          htn.append (.cons (by decide) (by decide) ((Neutral.body hb).append (.cons (by decide) (by decide) hc)))
        have hspec := searchOutQuotes_spec isOp (t ++ '(' :: (b ++ ')' :: (c ++ (o.text ++ W))))
        rw [h] at hspec
        obtain ⟨d, r, hd, hop⟩ := Op.text_cons o
        have e : t ++ '(' :: (b ++ ')' :: (c ++ (o.text ++ W))) = (t ++ '(' :: (b ++ ')' :: c)) ++ (d :: (r ++ W)) := by
          rw [hd]; simp
        rw [e] at hspec
        have hdq : d ≠ '"' := by rintro rfl; exact absurd hop (by decide)
        have h0 := searchOutQuotes_spec isOp (d :: (r ++ W))
        rw [searchOut_head _ _ hdq hop] at h0
        refine hspec ((t ++ '(' :: (b ++ ')' :: c)).length + 0) ⟨?_, ?_⟩
        · rw [Hit_append hneu.free]; exact h0.1.1
        · rw [OutQuotes_append hneu]; exact h0.1.2
    · next i hi =>
      have hge : t.length ≤ i := by
        rcases Nat.lt_or_ge i t.length with h' | h'
        · exfalso
          have hspec := searchOutQuotes_spec isOp (t ++ '(' :: (b ++ ')' :: (c ++ R)))
          rw [hi] at hspec
          have := hspec.1
          simp only at this
          rw [Hit_prefix _ _ _ _ h', OutQuotes_prefix _ h'] at this
          exact hno i this
        · exact h'
      obtain ⟨c', r', hd, -⟩ := searchOutQuotes_op hi
      split
      · next h => rw [hd] at h; exact absurd h (by simp)
      · next c1 r1 h =>
        have hlen := congrArg List.length h
        rw [innerBegin_open]
        rw [if_pos]
        · simp only [Option.getD_some, hend]
          rw [if_pos (by simp; omega)]
          have e : t ++ '(' :: (b ++ ')' :: (c ++ R)) = (t ++ '(' :: b) ++ ')' :: (c ++ R) := by simp
          rw [e, List.take_left' (by simp; omega)]
          have := hgo (cmd ++ (t ++ '(' :: b)) (by simp)
          simp only [List.drop_succ_cons, List.drop_zero]
          rw [this]
          simp
        · simp only [pastBlock, decide_eq_true_eq]
          simp at hlen ⊢
          omega
  intro n
  induction n with
  | zero =>
    intro t ht ha cmd hR hgo
    have : t = [] := List.length_eq_zero_iff.1 (by omega)
    subst this
    exact base [] .nil (by simp [Hit]) cmd hR hgo
  | succ n ih =>
    intro t ht ha cmd hR hgo
    rcases Amp_cases ha with hno | ⟨t1, t2, rfl, hno, hn1, hgt, ha2, -, -⟩
    · exact base t ha.neutral hno cmd hR hgo
    · have hl := Amp_length (t1 := t1) (t2 := t2) (c := '&')
      rw [List.append_assoc, List.cons_append, opsLoop_amp hn1 hno hgt (by simp),
        ih t2 (by omega) ha2 (cmd ++ t1 ++ ['&']) (by simpa using hR) (by simpa using hgo)]
      simp

/-- From the closing parenthesis of a block on. -/
theorem opsLoop_tail {ty : NodeType} {c R : List Char} {items : List (NodeType × List Char)} (h : Tail c) :
    ∀ cmd, Cont (cmd ++ ')' :: c) R items →
    opsLoop ty cmd (')' :: (c ++ R)) (innerBegin (c ++ R)) = .ok (some ((ty, cmd ++ ')' :: c) :: items)) := by
  induction h with
  | @text t ht =>
    intro cmd hR
    have ha := ht.toAmp
    rw [innerBegin_skip ha.neutral (noParen_amp ha)]
    exact opsLoop_text _ (')' :: t) (Nat.le_refl _) (Amp_paren (ha.mono isOp_struct)) cmd hR
  | @block t b c ht hb htail ih =>
    intro cmd hR
    have ha := ht.toAmp
    have e : (t ++ '(' :: (b ++ ')' :: c)) ++ R = t ++ ('(' :: (b ++ ')' :: (c ++ R))) := by simp
    rw [e, innerBegin_skip ha.neutral (noParen_amp ha)]
    have := opsLoop_block (ty := ty) hb (Neutral.tail htail) (R := R) (items := items) _ (')' :: t) (Nat.le_refl _)
      (Amp_paren (ha.mono isOp_struct)) cmd hR (fun cmd' h' => ih cmd' (by rw [h']; exact hR))
    exact this

/-- A whole command. -/
theorem opsLoop_command {ty : NodeType} {full R : List Char} {items : List (NodeType × List Char)} (h : Command full)
    (hR : Cont full R items) : opsLoop ty [] (full ++ R) (innerBegin (full ++ R)) = .ok (some ((ty, full) :: items)) := by
  have hmargin : ∀ {w : List Char}, (∀ c ∈ w, Margin c) → ∀ {p : Char → Bool}, (∀ c, Margin c → p c = false) →
      ∀ i, ¬ (Hit p w i ∧ OutQuotes w i) := by
    rintro w hw p hp i ⟨⟨⟨c, hc, hpc⟩, -⟩, -⟩
    rw [hp c (hw c (List.mem_of_getElem? hc))] at hpc
    exact absurd hpc (by simp)
  have hop : ∀ c, Margin c → isOp c = false := by
    rintro c (⟨rfl | rfl | rfl | rfl | rfl, -⟩ | rfl) <;> decide
  have hpar : ∀ c, Margin c → isParen c = false := by
    rintro c (⟨rfl | rfl | rfl | rfl | rfl, -⟩ | rfl) <;> decide
  cases h with
  | plain ht =>
    have ha := ht.toAmp
    rw [innerBegin_skip ha.neutral (noParen_amp ha)]
    exact opsLoop_text _ full (Nat.le_refl _) (ha.mono isOp_struct) [] hR
  | @group w b c hw hb hc =>
    have e : (w ++ '(' :: (b ++ ')' :: c)) ++ R = w ++ ('(' :: (b ++ ')' :: (c ++ R))) := by simp
    rw [e, innerBegin_skip (Neutral.margin hw) (hmargin hw hpar)]
    exact opsLoop_block hb (Neutral.tail hc) _ w (Nat.le_refl _)
      ⟨fun i hi => absurd hi (hmargin hw hop i), Neutral.margin hw⟩ [] hR
      (fun cmd' h' => opsLoop_tail hc cmd' (by rw [h']; exact hR))
  | @clause w t b c hw hk ht hb hc =>
    have hn : Neutral (w ++ t) := (Neutral.margin hw).append (.closed ht)
    have hno : ∀ {p : Char → Bool}, (∀ c, Margin c → p c = false) → (∀ c, p c = true → Struct c = true) →
        ∀ i, ¬ (Hit p (w ++ t) i ∧ OutQuotes (w ++ t) i) := by
      intro p hp hs i hi
      rcases Nat.lt_or_ge i w.length with h' | h'
      · rw [Hit_prefix _ _ _ _ h', OutQuotes_prefix _ h'] at hi
        exact hmargin hw hp i hi
      · obtain ⟨j, rfl⟩ : ∃ j, i = w.length + j := ⟨i - w.length, by omega⟩
        rw [Hit_append (Neutral.margin hw).free, OutQuotes_append (Neutral.margin hw)] at hi
        obtain ⟨⟨⟨d, hd, hpd⟩, hf⟩, ho⟩ := hi
        exact ht.none j ⟨⟨⟨d, hd, hs d hpd⟩, hf⟩, ho⟩
    have e : (w ++ t ++ '(' :: (b ++ ')' :: c)) ++ R = (w ++ t) ++ ('(' :: (b ++ ')' :: (c ++ R))) := by simp
    rw [e, innerBegin_skip hn (hno hpar (by
      intro c h
      simp only [isParen, Bool.or_eq_true, beq_iff_eq] at h
      rcases h with rfl | rfl <;> decide))]
    exact opsLoop_block hb (Neutral.tail hc) _ (w ++ t) (Nat.le_refl _)
      ⟨fun i hi => absurd hi (hno hop isOp_struct i), hn⟩ [] hR
      (fun cmd' h' => opsLoop_tail hc cmd' (by rw [h']; exact hR))

theorem Command.head {full : List Char} (h : Command full) (c : Char) (hc : isOp c = true) (x : List Char)
    (hne : full ≠ []) : (full ++ x).head? ≠ some c := by
  intro hh
  have hh' : full.head? = some c := by
    cases full with
    | nil => exact absurd rfl hne
    | cons d f => simpa using hh
  have hmar : ¬ Margin c := by
    have : c = '|' ∨ c = '&' := by simpa [isOp] using hc
    rcases this with rfl | rfl <;> unfold Margin Blank <;> decide
  cases h with
  | plain ht =>
    have h0 := ht.amp 0 ⟨⟨⟨c, by rw [← List.head?_eq_getElem?]; exact hh', isOp_struct c hc⟩, by simp [Free, caretsBefore]⟩,
      by simp [quotesBefore], by
        rintro ⟨h', -⟩
        rw [← List.head?_eq_getElem?, hh'] at h'
        cases h'
        exact absurd hc (by decide)⟩
    exact absurd h0.2.1 (by omega)
  | @group w b k hw hb hk =>
    cases w with
    | nil => simp at hh'; subst hh'; exact absurd hc (by decide)
    | cons d w => simp at hh'; subst hh'; exact hmar (hw _ (by simp))
  | @clause w t b k hw hkw ht hb hk =>
    cases w with
    | nil =>
      obtain ⟨k', b', r', rfl, -, h3⟩ := hkw
      cases k' with
      | nil => rcases h3 with h3 | h3 | h3 <;> simp at h3
      | cons d k' =>
        have hdc : d = c := by simpa using hh'
        subst hdc
        have : d = '|' ∨ d = '&' := by simpa [isOp] using hc
        rcases this with rfl | rfl <;> rcases h3 with h3 | h3 | h3 <;> simp at h3 <;> exact absurd h3.1 (by decide)
    | cons d w => simp at hh'; subst hh'; exact hmar (hw _ (by simp))

theorem written_cons (first : List Char) (o : Op) (c : List Char) (more : List (Op × List Char)) :
    written first ((o, c) :: more) = first ++ (o.text ++ written c more) := by
  simp [written]

theorem Spec.WellFormed.command {first : List Char} {more : List (Op × List Char)} (h : WellFormed first more) : Command first := by
  cases more with
  | nil => exact h
  | cons p more => exact h.1

theorem opsLoop_wellFormed {first : List Char} {more : List (Op × List Char)} (h : WellFormed first more) (ty : NodeType) :
    opsLoop ty [] (written first more) (innerBegin (written first more)) = .ok (some (toItems ty (first, more))) := by
  induction more generalizing first ty with
  | nil =>
    have := opsLoop_command (ty := ty) (R := []) (items := []) h (.inl ⟨rfl, rfl⟩)
    simpa [written, toItems] using this
  | cons p more ih =>
    obtain ⟨o, c⟩ := p
    obtain ⟨h1, h2, h3, h4⟩ := h
    rw [written_cons]
    refine opsLoop_command h1 (.inr ⟨o, written c more, rfl, ?_, ?_, h2, ih h4 (nodeOf o)⟩)
    · exact Command.head h4.command '&' (by decide) _ h3
    · exact Command.head h4.command '|' (by decide) _ h3

/-! ### The first block of a line -/

theorem skipAllBlanks_append {t R : List Char} (hR : ∀ c, R.head? = some c → ¬ Blank c ∧ c ≠ '@') :
    ∃ w t', t = w ++ t' ∧ skipAllBlanks (t ++ R) = t' ++ R ∧ (∀ c ∈ w, Blank c ∨ c = '@') := by
  induction t with
  | nil =>
    refine ⟨[], [], rfl, ?_, by simp⟩
    cases R with
    | nil => rfl
    | cons c R =>
      have := hR c rfl
      simp only [List.nil_append, skipAllBlanks]
      rw [if_neg]
      simp only [Bool.or_eq_true, beq_iff_eq, isDelim_iff]
      grind
  | cons c t ih =>
    simp only [List.cons_append, skipAllBlanks]
    split
    · next h =>
      obtain ⟨w, t', rfl, h2, h3⟩ := ih
      simp only [Bool.or_eq_true, beq_iff_eq, isDelim_iff] at h
      refine ⟨c :: w, t', rfl, h2, ?_⟩
      intro d hd
      simp at hd
      rcases hd with rfl | hd
      · exact h
      · exact h3 d hd
    · exact ⟨[], c :: t, rfl, rfl, by simp⟩

theorem beginStop_sub (p : List Char) (c : Char) (h : beginStop p c = true) : Struct c = true := by
  unfold beginStop at h
  split at h
  · simp only [clauseStop, lineStop, Bool.or_eq_true, beq_iff_eq, Bool.false_and, Bool.false_eq_true, or_false] at h
    rcases h with rfl | rfl | rfl <;> decide
  · simp only [lineStop, Bool.or_eq_true, beq_iff_eq, Bool.false_and, Bool.false_eq_true, or_false] at h
    rcases h with rfl | rfl <;> decide

theorem beginStop_op (p : List Char) (c : Char) (h : isOp c = true) : beginStop p c = true := by
  simp only [isOp, Bool.or_eq_true, beq_iff_eq] at h
  unfold beginStop
  split <;> rcases h with rfl | rfl <;> decide

theorem beginStop_not (p : List Char) (c : Char) (h : Struct c = false) : beginStop p c = false := by
  cases hb : beginStop p c with
  | false => rfl
  | true => rw [beginStop_sub p c hb] at h; exact absurd h (by simp)

/-- One step over an operator character. -/
theorem blockBegin_op {s t1 : List Char} {c : Char} {r : List Char} (hs : skipAllBlanks s = t1 ++ c :: r)
    (ht : Closed Struct t1) (hc : isOp c = true) :
    blockBegin s = if r.head? = some c then blockBegin (r.drop 1) else blockBegin r := by
  rw [blockBegin.eq_1]
  have hcl : Closed (beginStop (skipAllBlanks s)) t1 := ht.mono (beginStop_sub _)
  have hh := hcl.hybrid (beginStop_not _ _ (by decide)) (beginStop_not _ _ (by decide)) (c := c)
    (.inl (beginStop_op _ c hc)) r
  have hne : c ≠ '\n' := by rintro rfl; exact absurd hc (by decide)
  have hp : c ≠ '(' := by rintro rfl; exact absurd hc (by decide)
  rw [← hs] at hh
  split
  · next h => rw [hh] at h; exact absurd h (by simp)
  · next i hi =>
    rw [hh] at hi
    cases hi
    split
    · next h => rw [hs] at h; simp at h
    · next c' r' h =>
      rw [hs] at h
      simp at h
      obtain ⟨rfl, rfl⟩ := h
      rw [if_neg hp]
      split
      · next h => rw [if_pos h.2]
      · next h => rw [if_neg (fun h' => h ⟨hne, h'⟩)]

theorem Plain_drop {u v : List Char} (h : Plain (u ++ v)) (hu : Neutral u) (hgt : u.getLast? ≠ some '>') : Plain v := by
  have := Amp_drop h.toAmp hu hgt
  refine ⟨this.amp, ?_, this.neutral.even, this.neutral.free⟩
  intro i hi
  exact h.line (u.length + i) ((Hit_append hu.free v i).2 hi)

theorem Plain_cases {t : List Char} (h : Plain t) :
    Closed Struct t ∨ ∃ t1 t2, t = t1 ++ '&' :: t2 ∧ Closed Struct t1 ∧ Plain t2 ∧
      (t2.head? = some '1' ∨ t2.head? = some '2') := by
  rcases Amp_cases h.toAmp with hno | ⟨t1, t2, rfl, hno, hn1, hgt, ha2, hh, -⟩
  · exact .inl ⟨hno, h.line, h.even, h.free⟩
  · right
    refine ⟨t1, t2, rfl, ⟨hno, ?_, hn1.even, hn1.free⟩, ?_, hh⟩
    · intro i hi
      exact h.line i ((Hit_prefix _ _ _ _ (Hit_lt hi)).2 hi)
    · refine Plain_drop (u := t1 ++ ['&']) (by simpa using h) (hn1.append (.one (by decide) (by decide))) (by simp)

theorem blanks_neutral {w : List Char} (h : ∀ c ∈ w, Blank c ∨ c = '@') : Neutral w ∧ w.getLast? ≠ some '>' := by
  constructor
  · induction w with
    | nil => exact .nil
    | cons c w ih =>
      refine .cons ?_ ?_ (ih (fun d hd => h d (by simp [hd]))) <;>
        rcases h c (by simp) with (rfl | rfl | rfl | rfl | rfl) | rfl <;> decide
  · intro hl
    have := h '>' (List.mem_of_getLast? hl)
    revert this
    unfold Blank
    decide

/-- Text without blocks is passed over. -/
theorem blockBegin_plain : ∀ (n : Nat) (t : List Char), t.length ≤ n → Plain t →
    (blockBegin t = none) ∧ ∀ (o : Op) (W : List Char), W.head? ≠ some '&' → W.head? ≠ some '|' →
      blockBegin (t ++ (o.text ++ W)) = blockBegin W := by
  intro n
  induction n with
  | zero =>
    intro t ht hp
    have : t = [] := List.length_eq_zero_iff.1 (by omega)
    subst this
    refine ⟨blockBegin_none (by simp), ?_⟩
    intro o W h1 h2
    obtain ⟨c, r, hc, hop⟩ := Op.text_cons o
    have hs : skipAllBlanks ([] ++ (o.text ++ W)) = [] ++ c :: (r ++ W) := by
      rw [hc]
      have : c = '|' ∨ c = '&' := by simpa [isOp] using hop
      rcases this with rfl | rfl <;> rfl
    rw [blockBegin_op hs ⟨fun i hi => by
      have := Hit_lt hi.1
      simp at this, by simp [Hit], rfl, by simp [Free, caretsBefore]⟩ hop]
    have hk := (opKind_op o h1 h2 (show o.text ++ W = c :: (r ++ W) by rw [hc]; rfl)).1
    cases o <;> simp [Op.text] at hc <;> obtain ⟨rfl, rfl⟩ := hc <;> simp [h1, h2]
  | succ n ih =>
    intro t ht hp
    constructor
    · -- nothing follows
      obtain ⟨w, t', rfl, hs, hw⟩ := skipAllBlanks_append (t := t) (R := []) (by simp)
      simp only [List.append_nil] at hs
      obtain ⟨hwn, hwl⟩ := blanks_neutral hw
      have hp' := Plain_drop hp hwn hwl
      rcases Plain_cases hp' with hcl | ⟨t1, t2, rfl, hcl, hp2, hh⟩
      · rw [blockBegin.eq_1]
        have hcl' := hcl.mono (beginStop_sub t')
        have hnone : searchHybrid (· == '\n') (beginStop (skipAllBlanks (w ++ t'))) (skipAllBlanks (w ++ t')) = none := by
          rw [hs]
          unfold searchHybrid
          have h1 : searchTok (· == '\n') t' = none := (searchTok_none_iff _ _).2 hcl.line
          have h2 : searchOutQuotes (beginStop t') t' = none := by
            cases h : searchOutQuotes (beginStop t') t' with
            | none => rfl
            | some i =>
              have := searchOutQuotes_spec (beginStop t') t'
              rw [h] at this
              exact absurd this.1 (hcl'.none i)
          rw [h1, h2]
        split
        · rfl
        · next h => rw [hnone] at h; exact absurd h (by simp)
      · rw [blockBegin_op (c := '&') (r := t2) hs hcl (by decide), if_neg (by rcases hh with h | h <;> rw [h] <;> decide)]
        refine (ih t2 ?_ hp2).1
        simp at ht
        omega
    · intro o W h1 h2
      obtain ⟨c, r, hc, hop⟩ := Op.text_cons o
      have hcop : c = '|' ∨ c = '&' := by simpa [isOp] using hop
      obtain ⟨w, t', rfl, hs, hw⟩ := skipAllBlanks_append (t := t) (R := o.text ++ W) (by
        intro d hd
        rw [hc] at hd
        simp at hd
        subst hd
        rcases hcop with rfl | rfl <;> exact ⟨by decide, by decide⟩)
      obtain ⟨hwn, hwl⟩ := blanks_neutral hw
      have hp' := Plain_drop hp hwn hwl
      rcases Plain_cases hp' with hcl | ⟨t1, t2, rfl, hcl, hp2, hh⟩
      · have hs' : skipAllBlanks (w ++ t' ++ (o.text ++ W)) = t' ++ c :: (r ++ W) := by rw [hs, hc]; rfl
        rw [blockBegin_op hs' hcl hop]
        cases o <;> simp [Op.text] at hc <;> obtain ⟨rfl, rfl⟩ := hc <;> simp [h1, h2]
      · have hs' : skipAllBlanks (w ++ (t1 ++ '&' :: t2) ++ (o.text ++ W)) = t1 ++ '&' :: (t2 ++ (o.text ++ W)) := by
          rw [hs]; simp
        rw [blockBegin_op hs' hcl (by decide), if_neg]
        · refine (ih t2 ?_ hp2).2 o W h1 h2
          simp at ht
          omega
        · cases t2 with
          | nil => simp at hh
          | cons d t2 => simp at hh ⊢; rcases hh with rfl | rfl <;> decide

theorem margin_blank {c : Char} (h : Margin c) : Blank c ∨ c = '@' := by
  rcases h with ⟨h, -⟩ | h
  · exact .inl h
  · exact .inr h

theorem skipAllBlanks_margin {w : List Char} (h : ∀ c ∈ w, Margin c) {c : Char} (hc : ¬ (Blank c ∨ c = '@')) (x : List Char) :
    skipAllBlanks (w ++ c :: x) = c :: x := by
  induction w with
  | nil =>
    simp only [List.nil_append, skipAllBlanks]
    rw [if_neg]
    simp only [Bool.or_eq_true, beq_iff_eq, isDelim_iff]
    exact hc
  | cons d w ih =>
    simp only [List.cons_append, skipAllBlanks]
    rw [if_pos, ih (fun e he => h e (by simp [he]))]
    simp only [Bool.or_eq_true, beq_iff_eq, isDelim_iff]
    exact margin_blank (h d (by simp))

theorem blockBegin_found {s t r : List Char} (hs : skipAllBlanks s = t ++ '(' :: r) (ht : Closed Struct t)
    (hstop : beginStop (t ++ '(' :: r) '(' = true) : blockBegin s = some ('(' :: r) := by
  rw [blockBegin.eq_1]
  have hcl : Closed (beginStop (skipAllBlanks s)) t := ht.mono (beginStop_sub _)
  have hh := hcl.hybrid (beginStop_not _ _ (by decide)) (beginStop_not _ _ (by decide)) (c := '(')
    (.inl (by rw [hs]; exact hstop)) r
  rw [← hs] at hh
  split
  · next h => rw [hh] at h; exact absurd h (by simp)
  · next i hi =>
    rw [hh] at hi
    cases hi
    split
    · next h => rw [hs] at h; simp at h
    · next c' r' h =>
      rw [hs] at h
      simp at h
      obtain ⟨rfl, rfl⟩ := h
      rw [if_pos rfl]

theorem Closed_nil (p : Char → Bool) : Closed p [] := ⟨by simp [Hit], by simp [Hit], rfl, by simp [Free, caretsBefore]⟩

/-- The first block found is the first parenthesis outside quotes. -/
theorem blockBegin_wellFormed {first : List Char} {more : List (Op × List Char)} (h : WellFormed first more) :
    blockBegin (written first more) = innerBegin (written first more) := by
  induction more generalizing first with
  | nil =>
    have e : written first [] = first ++ [] := by simp [written]
    rw [e]
    exact blockBegin_command h [] (.inl ⟨rfl, fun _ => by simp [innerBegin, searchOutQuotes_scan, outScan]⟩)
  | cons p more ih =>
    obtain ⟨o, c⟩ := p
    obtain ⟨h1, -, h3, h4⟩ := h
    rw [written_cons]
    refine blockBegin_command h1 _ (.inr ⟨o, written c more, rfl, ?_, ?_, ih h4⟩)
    · exact Command.head h4.command '&' (by decide) _ h3
    · exact Command.head h4.command '|' (by decide) _ h3
where
  blockBegin_command {full : List Char} (h : Command full) (R : List Char)
      (hR : (R = [] ∧ (R = [] → innerBegin R = none)) ∨
        ∃ (o : Op) (W : List Char), R = o.text ++ W ∧ W.head? ≠ some '&' ∧ W.head? ≠ some '|' ∧
          blockBegin W = innerBegin W) :
      blockBegin (full ++ R) = innerBegin (full ++ R) := by
    cases h with
    | plain ht =>
      have ha := ht.toAmp
      have hb := blockBegin_plain _ full (Nat.le_refl _) ht
      rw [innerBegin_skip ha.neutral (noParen_amp ha)]
      rcases hR with ⟨rfl, hR⟩ | ⟨o, W, rfl, h1, h2, h3⟩
      · rw [List.append_nil, hb.1, hR rfl]
      · rw [hb.2 o W h1 h2, innerBegin_skip (Neutral.op o) (noParen_op o), h3]
    | @group w b c hw hb hc =>
      have e : (w ++ '(' :: (b ++ ')' :: c)) ++ R = w ++ ('(' :: (b ++ ')' :: (c ++ R))) := by simp
      have hpar : ∀ i, ¬ (Hit isParen w i ∧ OutQuotes w i) := by
        rintro i ⟨⟨⟨d, hd, hp⟩, -⟩, -⟩
        have := hw d (List.mem_of_getElem? hd)
        rcases this with ⟨rfl | rfl | rfl | rfl | rfl, -⟩ | rfl <;> exact absurd hp (by decide)
      rw [e, innerBegin_skip (Neutral.margin hw) hpar, innerBegin_open]
      refine blockBegin_found (t := []) ?_ (Closed_nil _) (by simp [beginStop, clauseStop])
      exact skipAllBlanks_margin hw (by decide) _
    | @clause w t b c hw hk ht hb hc =>
      have e : (w ++ t ++ '(' :: (b ++ ')' :: c)) ++ R = w ++ (t ++ ('(' :: (b ++ ')' :: (c ++ R)))) := by simp
      have hpar : ∀ i, ¬ (Hit isParen w i ∧ OutQuotes w i) := by
        rintro i ⟨⟨⟨d, hd, hp⟩, -⟩, -⟩
        have := hw d (List.mem_of_getElem? hd)
        rcases this with ⟨rfl | rfl | rfl | rfl | rfl, -⟩ | rfl <;> exact absurd hp (by decide)
      have hpt : ∀ i, ¬ (Hit isParen t i ∧ OutQuotes t i) := by
        rintro i ⟨⟨⟨d, hd, hp⟩, hf⟩, ho⟩
        refine ht.none i ⟨⟨⟨d, hd, ?_⟩, hf⟩, ho⟩
        simp only [isParen, Bool.or_eq_true, beq_iff_eq] at hp
        rcases hp with rfl | rfl <;> decide
      rw [e, innerBegin_skip (Neutral.margin hw) hpar, innerBegin_skip (.closed ht) hpt, innerBegin_open]
      have hkw := BlockWord_append hk ('(' :: (b ++ ')' :: (c ++ R)))
      refine blockBegin_found (t := t) ?_ ht ?_
      · cases t with
        | nil => obtain ⟨k, b', r, h, -⟩ := hk; simp at h
        | cons d t =>
          refine skipAllBlanks_margin hw ?_ _
          have := (blockWord_head hk).1
          intro h'
          apply this
          rcases h' with h' | h'
          · left
            refine ⟨h', ?_⟩
            rintro rfl
            obtain ⟨k, b', r, h1, -, h3⟩ := hk
            cases k with
            | nil => rcases h3 with h3 | h3 | h3 <;> simp at h3
            | cons x k =>
              simp at h1
              rw [← h1.1] at h3
              rcases h3 with h3 | h3 | h3 <;> simp at h3 <;> exact absurd h3.1 (by decide)
          · exact .inr h'
      · unfold beginStop
        rw [(blockWord_iff _).2 hkw]
        rfl

theorem parseOps_wellFormed {first : List Char} {more : List (Op × List Char)} (h : WellFormed first more) :
    parseOps (written first more) = .ok (some (toItems .none (first, more))) := by
  unfold parseOps
  rw [blockBegin_wellFormed h, opsLoop_wellFormed h]

end PBat
