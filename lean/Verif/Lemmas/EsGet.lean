import Verif.Lemmas.Replace
namespace PBat
open Spec

/-! ### Newline normalisation -/

theorem rep_crlf_cons (c : Char) (cs : List Char) (hc : c ≠ '\r') :
    replaceText ['\r', '\n'] ['\n'] (c :: cs) = c :: replaceText ['\r', '\n'] ['\n'] cs := by
  rw [replaceText_cons _ _ (by simp)]
  rw [if_neg]
  simp [List.isPrefixOf, Ne.symm hc]

theorem rep_cr_cons (c : Char) (cs : List Char) :
    replaceText ['\r'] ['\n'] (c :: cs) = (if c = '\r' then '\n' else c) :: replaceText ['\r'] ['\n'] cs := by
  rw [replaceText_cons _ _ (by simp)]
  by_cases hc : c = '\r'
  · simp [hc, List.isPrefixOf]
  · rw [if_neg (by simp [List.isPrefixOf, Ne.symm hc])]; simp [hc]

theorem norm_eq (s : List Char) :
    replaceText ['\r'] ['\n'] (replaceText ['\r', '\n'] ['\n'] s) = normNL s := by
  fun_induction normNL s with
  | case1 => simp [replaceText_nil]
  | case2 =>
    rw [replaceText_cons _ _ (by simp), if_neg (by decide), replaceText_nil _ _ (by simp), rep_cr_cons,
      replaceText_nil _ _ (by simp)]
    rfl
  | case3 c hc =>
    rw [rep_crlf_cons c _ hc, replaceText_nil _ _ (by simp), rep_cr_cons, replaceText_nil _ _ (by simp), if_neg hc]
  | case4 r ih =>
    rw [replaceText_cons _ _ (by simp)]
    have : List.isPrefixOf ['\r', '\n'] ('\r' :: '\n' :: r) = true := by simp [List.isPrefixOf]
    rw [if_pos this]
    simp only [List.length_cons, List.length_nil, List.drop_succ_cons, List.drop_zero, List.cons_append,
      List.nil_append]
    rw [rep_cr_cons, ih]
    rfl
  | case5 d r hd ih =>
    rw [replaceText_cons _ _ (by simp), if_neg (by simp [List.isPrefixOf]; exact fun h => hd h.symm),
      rep_cr_cons, ih]
    rfl
  | case6 c d r hc ih =>
    rw [rep_crlf_cons c _ hc, rep_cr_cons, ih, if_neg hc]

theorem normNL_length (s : List Char) : (normNL s).length ≤ s.length := by
  fun_induction normNL s <;> simp_all <;> omega

theorem rep_crlf_length (s : List Char) : (replaceText ['\r', '\n'] ['\n'] s).length ≤ s.length := by
  induction hn : s.length using Nat.strongRecOn generalizing s with
  | _ n ih =>
    cases s with
    | nil => simp [replaceText_nil]
    | cons c cs =>
      rw [replaceText_cons _ _ (by simp)]
      simp only [List.length_cons] at hn
      split
      · next h =>
        have := ih _ (by simp; omega) ((c :: cs).drop 2) rfl
        simp at this ⊢
        have h2 : 2 ≤ (c :: cs).length := (List.isPrefixOf_iff_prefix.1 h).length_le
        simp at h2
        omega
      · have := ih _ (by omega) cs rfl
        simp; omega

theorem normNL_append_lf (a b : List Char) : normNL (a ++ '\n' :: b) = normNL (a ++ ['\n']) ++ normNL b := by
  induction hn : a.length using Nat.strongRecOn generalizing a with
  | _ n ih =>
    match a, hn with
    | [], _ =>
      cases b with
      | nil => simp [normNL]
      | cons d r => simp [normNL]
    | [c], hn =>
      by_cases hc : c = '\r'
      · subst hc
        simp [normNL]
      · have h0 := ih 0 (by simp at hn; omega) [] rfl
        simp only [List.nil_append] at h0
        simp only [List.cons_append, List.nil_append, normNL, hc, if_false]
        rw [h0]; simp [normNL]
    | c :: d :: r, hn =>
      simp only [List.length_cons] at hn
      have h1 := ih r.length (by omega) r rfl
      have h2 := ih (d :: r).length (by simp; omega) (d :: r) rfl
      simp only [List.cons_append] at h2 ⊢
      simp only [normNL]
      split
      · split
        · rw [h1]; rfl
        · rw [h2]; rfl
      · rw [h2]; rfl

/-! ### Lines -/

theorem lines_cons (c : Char) (cs : List Char) : lines (c :: cs) =
    if c = '\n' then ['\n'] :: lines cs
    else match lines cs with
      | [] => [[c]]
      | l :: ls => (c :: l) :: ls := rfl

theorem lines_ne_nil (c : Char) (cs : List Char) : lines (c :: cs) ≠ [] := by
  simp only [lines]
  split
  · simp
  · split <;> simp

theorem lines_head_ne {s : List Char} {ls : List (List Char)} (h : lines s = [] :: ls) : False := by
  cases s with
  | nil => simp [lines] at h
  | cons c cs =>
    simp only [lines] at h
    split at h
    · simp at h
    · split at h <;> simp at h

theorem lines_flatten (s : List Char) : (lines s).flatten = s := by
  induction s with
  | nil => rfl
  | cons c cs ih =>
    simp only [lines]
    split
    · next h => simp [ih, h]
    · split
      · next h => rw [h] at ih; simp at ih; simp [← ih]
      · next l ls h => rw [h] at ih; simp at ih; simp [ih]

/-- A line ended by a line feed. -/
theorem lines_lf (l rest : List Char) (hl : '\n' ∉ l) : lines (l ++ '\n' :: rest) = (l ++ ['\n']) :: lines rest := by
  induction l with
  | nil => simp [lines]
  | cons c cs ih =>
    have hc : c ≠ '\n' := by intro e; exact hl (by simp [e])
    have ih := ih (fun h => hl (by simp [h]))
    simp [lines, hc, ih]

/-- An unterminated last line. -/
theorem lines_last (l : List Char) (hl : '\n' ∉ l) (hne : l ≠ []) : lines l = [l] := by
  induction l with
  | nil => exact absurd rfl hne
  | cons c cs ih =>
    have hc : c ≠ '\n' := by intro e; exact hl (by simp [e])
    cases cs with
    | nil => simp [lines, hc]
    | cons d ds =>
      have ih := ih (fun h => hl (by simp [h])) (by simp)
      rw [lines]; simp [hc, ih]

/-- What one `fgets` returns. -/
theorem fgetsTake_spec (k : Nat) (s : List Char) :
    (∃ a, '\n' ∉ a ∧ (fgetsTake k s).1 = a ++ ['\n']) ∨
    ('\n' ∉ (fgetsTake k s).1 ∧ ((fgetsTake k s).1.length = k ∨ (fgetsTake k s).2 = [])) := by
  induction k generalizing s with
  | zero => right; simp [fgetsTake]
  | succ k ih =>
    cases s with
    | nil => right; simp [fgetsTake]
    | cons c cs =>
      simp only [fgetsTake]
      split
      · next h => left; exact ⟨[], by simp, by simp [h]⟩
      · next h =>
        rcases ih cs with ⟨a, h1, h2⟩ | ⟨h1, h2⟩
        · left; exact ⟨c :: a, by simp [h1, Ne.symm h], by simp [h2]⟩
        · right
          refine ⟨by simp [h1, Ne.symm h], ?_⟩
          rcases h2 with h2 | h2
          · left; simp [h2]
          · right; exact h2

theorem fgetsTake_nil {k : Nat} {s : List Char} (hk : k ≠ 0) (h : (fgetsTake k s).1 = []) : s = [] := by
  cases k with
  | zero => exact absurd rfl hk
  | succ k =>
    cases s with
    | nil => rfl
    | cons c cs => simp only [fgetsTake] at h; split at h <;> simp at h

theorem fgetsTake_of_nil (k : Nat) : fgetsTake k [] = ([], []) := by cases k <;> rfl

/-- Writing a chunk after the text already read. -/
theorem write_chunk {b : List Char} {t chunk : List Char} (ht : b.take t.length = t)
    (hroom : t.length + chunk.length + 1 ≤ b.length) :
    ∃ b', wr b t.length (chunk ++ [NUL]) = some b' ∧ b'.length = b.length ∧
      ∃ r, b' = (t ++ chunk) ++ NUL :: r := by
  have hw := wr_some (b := b) (off := t.length) (bytes := chunk ++ [NUL]) (by simp; omega)
  refine ⟨_, hw, wr_length hw, ⟨b.drop (t.length + (chunk ++ [NUL]).length), ?_⟩⟩
  rw [ht]; simp

/-- The reading loop, once something was read or at the start. `t` is what is already in the buffer. -/
theorem esGetLoop_spec (g : Nat → Char) (stream : List Char) (hne : stream ≠ []) (hnul : NUL ∉ stream)
    (e : Estr) (t l : List Char) (ls : List (List Char)) (cur : Nat) (read : Bool)
    (hline : lines stream = l :: ls)
    (h1 : (e.str.length : Int) = e.len) (h2 : 256 ≤ e.len) (h3 : e.len ≤ 2 ^ 28)
    (h3' : t ≠ [] → e.len ≤ 2 * (t.length + 1))
    (hcur : t.length + cur + 1 = e.str.length) (hcur0 : cur ≠ 0) (htn : NUL ∉ t) (htl : '\n' ∉ t)
    (ht : e.str.take t.length = t) (hb : t.length + l.length ≤ 2 ^ 27) :
    ∃ e', esGetLoop g e t.length cur stream read = .ok (e', ls.flatten, true) ∧ Holds e' (t ++ l) ∧
      (e'.len ≤ 2 ^ 28 ∨ (ls = [] ∧ e'.len ≤ 2 ^ 29)) := by
  induction hn : stream.length using Nat.strongRecOn generalizing stream e t l cur read with
  | _ n ih =>
  have hap := fgetsTake_append cur stream
  have hsp := fgetsTake_spec cur stream
  have hni : (fgetsTake cur stream).1 ≠ [] := fun h => hne (fgetsTake_nil hcur0 h)
  have hlen : (fgetsTake cur stream).1.length ≤ cur := by
    clear hap hsp hni hcur hline ih hcur0 hnul hne hn
    induction cur generalizing stream with
    | zero => simp [fgetsTake]
    | succ k ih =>
      cases stream with
      | nil => simp [fgetsTake]
      | cons c cs =>
        simp only [fgetsTake]
        split
        · simp
        · simpa using ih cs
  cases hf : fgetsTake cur stream with
  | mk taken rest =>
  rw [hf] at hap hsp hni hlen
  simp only at hap hsp hni hlen
  obtain ⟨c, cs, rfl⟩ : ∃ c cs, taken = c :: cs := by
    cases taken with
    | nil => exact absurd rfl hni
    | cons c cs => exact ⟨c, cs, rfl⟩
  obtain ⟨b, hw, hbl, r, hbr⟩ := write_chunk (b := e.str) (t := t) (chunk := c :: cs) ht (by omega)
  have hnul2 : NUL ∉ t ++ (c :: cs) := by
    intro hm
    rcases List.mem_append.1 hm with hm | hm
    · exact htn hm
    · exact hnul (by rw [← hap]; exact List.mem_append_left _ hm)
  have hcs : cstr b = some (t ++ (c :: cs)) := by
    rw [hbr]; unfold cstr; rw [cstrlen_append _ _ hnul2, Option.map_some, List.take_left]
  have hstep := esGetLoop.eq_1 g e t.length cur stream read
  rw [hstep]
  split
  · next heq => rw [hf] at heq; simp at heq
  · next c' cs' rest' heq =>
    rw [hf] at heq
    simp only [Prod.mk.injEq, List.cons.injEq] at heq
    obtain ⟨⟨rfl, rfl⟩, rfl⟩ := heq
    simp only [hw, hcs]
    rcases hsp with ⟨a, ha1, ha2⟩ | ⟨ha, hfull⟩
    · -- the newline was read
      have hmem : '\n' ∈ t ++ (c :: cs) := by rw [ha2]; simp
      rw [if_pos hmem]
      have hl := lines_lf a rest ha1
      rw [ha2] at hap
      have : a ++ '\n' :: rest = stream := by rw [← hap]; simp
      rw [this, hline] at hl
      simp only [List.cons.injEq] at hl
      obtain ⟨rfl, rfl⟩ := hl
      refine ⟨{ e with str := b }, by rw [lines_flatten],
        ⟨by simp only [hbl]; exact h1, h2, by simp only; omega, ?_, ?_⟩, Or.inl h3⟩
      · rw [← ha2]; exact hnul2
      · exact ⟨r, by rw [← ha2]; exact hbr⟩
    · -- no newline yet
      have hmem : '\n' ∉ t ++ (c :: cs) := by
        intro hm
        rcases List.mem_append.1 hm with hm | hm
        · exact htl hm
        · exact ha hm
      rw [if_neg hmem, if_neg (by omega)]
      have hto : toSize (e.len * 2) = e.str.length * 2 := by
        unfold toSize; omega
      have hton : e.len.toNat = e.str.length := by omega
      rw [hto, hton]
      by_cases hrest : rest = []
      · -- end of the stream
        subst hrest
        have hs : stream = c :: cs := by rw [← hap]; simp
        rw [hs, lines_last _ ha (by simp)] at hline
        simp only [List.cons.injEq] at hline
        obtain ⟨rfl, rfl⟩ := hline
        rw [esGetLoop]
        simp only [List.flatten_nil]
        split
        · refine ⟨_, rfl, ?_, Or.inr ⟨trivial, by simp only; omega⟩⟩
          have := Spec.Holds.resize (e := { e with str := b }) (t := t ++ c :: cs)
            ⟨by simp only [hbl]; exact h1, h2, by simp only; omega, hnul2, ⟨r, hbr⟩⟩ g (e.str.length * 2)
            (by simp only [hbl]; omega) (by omega)
          rw [show e.len * 2 = ((e.str.length * 2 : Nat) : Int) by omega]
          exact this
        · next heq => rw [fgetsTake_of_nil] at heq; simp at heq
      · have hfl : (c :: cs).length = cur := by
          rcases hfull with h | h
          · exact h
          · exact absurd h hrest
        -- the rest of the line
        obtain ⟨l', hl', hl2⟩ : ∃ l', l = (c :: cs) ++ l' ∧ lines rest = l' :: ls := by
          cases hlr : lines rest with
          | nil => 
            cases rest with
            | nil => exact absurd rfl hrest
            | cons d ds => exact absurd hlr (lines_ne_nil d ds)
          | cons l' ls' =>
            have : lines ((c :: cs) ++ rest) = ((c :: cs) ++ l') :: ls' := by
              clear hap hstep hf hw hbr hcs hmem hnul2 hfl hfull hlen hni
              generalize c :: cs = u at ha
              induction u with
              | nil => simpa using hlr
              | cons d ds ih2 =>
                have hd : d ≠ '\n' := by intro e; exact ha (by simp [e])
                have := ih2 (fun h => ha (by simp [h]))
                simp [lines, hd, this]
            rw [hap, hline] at this
            simp only [List.cons.injEq] at this
            obtain ⟨rfl, rfl⟩ := this
            exact ⟨l', rfl, rfl⟩
        subst hl'
        have hlt : (t ++ c :: cs).length = e.str.length - 1 := by simp at hfl ⊢; omega
        have hlen2 : t.length + (c :: cs).length + 1 = e.str.length := by omega
        simp only [List.length_append] at hb
        have hl'pos : l' ≠ [] := by
          rintro rfl
          exact lines_head_ne hl2
        have hl'pos := List.length_pos_iff.2 hl'pos
        have := ih rest.length (by rw [← hn, ← hap]; simp; omega) rest hrest
          (fun hm => hnul (by rw [← hap]; exact List.mem_append_right _ hm))
          { str := resize g b (e.str.length * 2), len := e.len * 2 } (t ++ c :: cs) l' e.str.length true hl2
          (by simp only [resize_length]; omega) (by simp only; omega) (by simp only; omega)
          (by intro _; simp only [List.length_append]; omega)
          (by simp only [resize_length, List.length_append]; omega) (by omega) hnul2 hmem
          (by
            simp only [resize]
            rw [List.take_of_length_le (by omega : b.length ≤ e.str.length * 2), List.take_append_of_le_length (by rw [hlt]; omega), hbr, List.take_left]) (by simp only [List.length_append]; omega) rfl
        rw [hlt] at this
        obtain ⟨e', q1, q2, q3⟩ := this
        refine ⟨e', q1, by simpa using q2, q3⟩

theorem esGet_nil (g : Nat → Char) (e : Estr) (t : List Char) (h : Holds e t) :
    ∃ e', esGet g e [] = .ok (1, e', []) ∧ Holds e' (normNL t) := by
  have h0 : esGetLoop g e 0 ((e.len).toNat - 1) [] false = .ok (e, [], false) := by
    rw [esGetLoop]
    split
    · rfl
    · next heq => rw [fgetsTake_of_nil] at heq; simp at heq
  have hlt := h.lt
  have hr := h.2.2.1
  have hl := h.1
  obtain ⟨e1, a1, a2, -⟩ := esReplace_spec g e t ['\r', '\n'] ['\n'] h (by simp) (by decide)
    (by have := rep_crlf_length t; omega)
  obtain ⟨e2, b1, b2, -⟩ := esReplace_spec g e1 _ ['\r'] ['\n'] a2 (by simp) (by decide)
    (by rw [norm_eq]; have := normNL_length t; omega)
  rw [norm_eq] at b2
  exact ⟨e2, by simp [esGet, h0, a1, b1], b2⟩

theorem esGet_line (g : Nat → Char) (stream : List Char) (hnul : NUL ∉ stream)
    (e : Estr) (t0 l : List Char) (ls : List (List Char)) (hline : lines stream = l :: ls)
    (h : Holds e t0) (hlen : e.len ≤ 2 ^ 28) (hb : l.length ≤ 2 ^ 27) :
    ∃ e', esGet g e stream = .ok (0, e', ls.flatten) ∧ Holds e' (normNL l) ∧
      (e'.len ≤ 2 ^ 28 ∨ ls = []) := by
  have hne : stream ≠ [] := by rintro rfl; simp [lines] at hline
  obtain ⟨q1, q2, q3, q4, q5⟩ := h
  obtain ⟨e0, p1, p2, p3⟩ := esGetLoop_spec g stream hne hnul e [] l ls (e.len.toNat - 1) false hline q1 q2 hlen
    (by simp) (by simp; omega) (by omega) (by simp) (by simp) (by simp) (by simpa using hb)
  simp only [List.length_nil, List.nil_append] at p1 p2
  obtain ⟨e1, a1, a2, a3⟩ := esReplace_spec g e0 l ['\r', '\n'] ['\n'] p2 (by simp) (by decide)
    (by have := rep_crlf_length l; omega)
  obtain ⟨e2, b1, b2, b3⟩ := esReplace_spec g e1 _ ['\r'] ['\n'] a2 (by simp) (by decide)
    (by rw [norm_eq]; have := normNL_length l; omega)
  rw [norm_eq] at b2 b3
  refine ⟨e2, by simp [esGet, p1, a1, b1], b2, ?_⟩
  rcases p3 with p3 | ⟨p3, -⟩
  · left
    have x1 := rep_crlf_length l
    have x2 := normNL_length l
    have := a3 28 (by omega) (by omega) p3 (by omega)
    exact b3 28 (by omega) (by omega) this (by omega)
  · exact Or.inr p3

end PBat
