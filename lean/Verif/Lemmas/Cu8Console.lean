import Verif.Spec.Cu8Console
/-
C96: the keys of the line editor.
-/
namespace PBat.Spec
open PBat PBat.Cu8

/-- The history of the code. -/
structure HistIs (h : Hist) (hist : List (List (List Nat))) : Prop where
  len : h.entries.length = hist.length
  text : ∀ n e, h.entries[n]? = some e → hist[n]? = some (hist.getD n []) ∧ e.text = (hist.getD n []).flatten ∧ e.wild = false ∧ e.block ∉ h.freed
  chars : ∀ e ∈ hist, ∀ c ∈ e, IsChar c

/-- The line of the code. -/
structure Shows (s : ESt) (l : CuLine) : Prop where
  line : s.line = l.bytes
  pos : s.pos = l.before.flatten.length
  hid : s.hid = (l.hid : Int)
  chars : ∀ c ∈ l.before ++ l.after, IsChar c

theorem Shows.bytes {s : ESt} {l : CuLine} (h : Shows s l) : s.line = l.before.flatten ++ l.after.flatten := by
  rw [h.line, CuLine.bytes, List.flatten_append]

theorem Shows.take {s : ESt} {l : CuLine} (h : Shows s l) : s.line.take s.pos = l.before.flatten := by
  rw [h.bytes, h.pos, List.take_left]

theorem Shows.drop {s : ESt} {l : CuLine} (h : Shows s l) : s.line.drop s.pos = l.after.flatten := by
  rw [h.bytes, h.pos, List.drop_left]

theorem takeWhile_following {u rest : List Nat} (hu : ∀ b ∈ u, isFollowing b = true) (hr : ∀ b, rest.head? = some b → isFollowing b = false) :
    (u ++ rest).takeWhile isFollowing = u := by
  induction u with
  | nil =>
    cases rest with
    | nil => rfl
    | cons b rest => simp [hr b rfl]
  | cons b u ih =>
    simp [hu b (by simp), ih (fun x hx => hu x (by simp [hx]))]

theorem head_flatten {l : List (List Nat)} (h : ∀ c ∈ l, IsChar c) : ∀ b, l.flatten.head? = some b → isFollowing b = false := by
  cases l with
  | nil => intro b h; cases h
  | cons c l =>
    intro b hb
    obtain ⟨h1, _, h2, _⟩ := h c (by simp)
    cases c with
    | nil => exact absurd rfl h1
    | cons x c =>
      simp at hb
      subst hb
      simpa using h2

/-- The length of the next character. -/
theorem nextLen_flatten {c : List Nat} {l : List (List Nat)} (hc : IsChar c) (h : ∀ x ∈ l, IsChar x) :
    nextLen (c :: l).flatten = c.length := by
  obtain ⟨h1, _, _, h2⟩ := hc
  cases c with
  | nil => exact absurd rfl h1
  | cons x c =>
    simp only [List.flatten_cons, List.cons_append, nextLen, List.length_cons]
    rw [takeWhile_following (u := c) h2 (head_flatten h)]
    omega

/-- The beginning of the character before the cursor. -/
theorem backOver_flatten {pre c rest : List Nat} (hc : IsChar c) : ∀ p, pre.length ≤ p → p < pre.length + c.length →
    backOver (pre ++ c ++ rest) p = pre.length := by
  intro p
  induction p with
  | zero => intro h _; rw [backOver]; omega
  | succ p ih =>
    intro h1 h2
    rw [backOver]
    have hget : (pre ++ c ++ rest).getD (p + 1) 0 = c.getD (p + 1 - pre.length) 0 := by
      simp only [List.getD_eq_getElem?_getD]
      rw [List.append_assoc, List.getElem?_append_right h1, List.getElem?_append_left (by omega)]
    rw [hget]
    by_cases he : pre.length = p + 1
    · have : isFollowing (c.getD (p + 1 - pre.length) 0) = false := by
        rw [he, Nat.sub_self]
        obtain ⟨a, _, b, _⟩ := hc
        cases c with
        | nil => exact absurd rfl a
        | cons x c => simpa using b
      rw [this]
      simp [he]
    · have : isFollowing (c.getD (p + 1 - pre.length) 0) = true := by
        obtain ⟨a, _, _, b⟩ := hc
        cases c with
        | nil => exact absurd rfl a
        | cons x c =>
          have hx : p + 1 - pre.length = (p - pre.length) + 1 := by omega
          rw [hx, List.getD_cons_succ]
          have hl : p - pre.length < c.length := by simp at h2; omega
          rw [List.getD_eq_getElem?_getD, List.getElem?_eq_getElem hl]
          exact b _ (by simp)
      rw [this]
      simp only [↓reduceIte]
      exact ih (by omega) (by omega)

/-- A character put at the cursor. -/
theorem putChar_shows {orig : Nat} {s : ESt} {l : CuLine} (h : Shows s l) {u : List Nat} (hu : IsChar u)
    (hf : s.line.length + u.length < orig) :
    putChar orig u s = .ok (.more { s with line := l.before.flatten ++ u ++ l.after.flatten, pos := s.pos + u.length }) := by
  have hb := h.bytes
  have hlen : s.line.length = l.before.flatten.length + l.after.flatten.length := by rw [hb]; simp
  have hroom : ∀ x : List Nat, x.length = u.length → x.take (orig - s.line.length) = x ∧ x.drop (orig - s.line.length) = [] := by
    intro x hx
    exact ⟨List.take_of_length_le (by omega), List.drop_of_length_le (by omega)⟩
  have hline : ∀ r : List Nat × List Nat, r.2.length = u.length → r.1 ++ r.2 = l.before.flatten ++ u ++ l.after.flatten →
      (if s.pos + u.length > (r.1 ++ r.2.take (orig - s.line.length)).length then Res.ub
        else Res.ok (if orig - s.line.length < u.length ∨ (r.1 ++ r.2.take (orig - s.line.length)).length = orig then
          EOut.got (r.1 ++ r.2.take (orig - s.line.length)) (r.2.drop (orig - s.line.length))
          else .more { s with line := r.1 ++ r.2.take (orig - s.line.length), pos := s.pos + u.length })) =
      .ok (.more { s with line := l.before.flatten ++ u ++ l.after.flatten, pos := s.pos + u.length }) := by
    intro r h2 h1
    rw [(hroom r.2 h2).1, h1]
    have hl : (l.before.flatten ++ u ++ l.after.flatten).length = s.line.length + u.length := by
      simp only [List.length_append]; omega
    rw [if_neg (by rw [hl, h.pos]; omega), if_neg (by rw [hl]; omega)]
  unfold putChar
  simp only [h.drop, h.take]
  apply hline
  · split
    · rfl
    · split
      · simp only [List.length_append, List.length_drop]; omega
      · simp only [List.length_drop]; omega
  · split
    · rename_i h0
      have : l.after.flatten = [] := List.length_eq_zero_iff.1 h0
      simp [hb, this]
    · split
      · simp only [List.append_assoc]
        rw [← List.append_assoc (u.take _), List.take_append_drop]
      · simp only [List.append_assoc, List.take_append_drop]

theorem goOn_ok {orig : Nat} {s : ESt} (h : s.line.length < orig) : goOn orig s = .ok (.more s) := by
  rw [goOn, if_pos h]

theorem showEntry_ok {orig : Nat} {h : Hist} {hist : List (List (List Nat))} (hh : HistIs h hist) {n : Nat} (hn : n < hist.length) (s : ESt)
    (hf : (hist.getD n []).flatten.length < orig) :
    showEntry orig h n s = .ok (.more { line := (hist.getD n []).flatten, pos := (hist.getD n []).flatten.length, hid := n }) := by
  obtain ⟨e, he⟩ : ∃ e, h.entries[n]? = some e := by
    rw [← hh.len] at hn
    exact ⟨_, List.getElem?_eq_getElem hn⟩
  obtain ⟨_, ht, hw, hb⟩ := hh.text n e he
  rw [showEntry, Int.toNat_natCast, he]
  simp only
  rw [if_pos (by rw [ht]; omega), if_neg (by rintro (h | h); rw [hw] at h; cases h; exact hb h), ht, goOn_ok hf]

theorem recall_some {hist : List (List (List Nat))} {n : Nat} (hn : n < hist.length) (l : CuLine) :
    l.recall hist n = ⟨hist.getD n [], [], n⟩ := by
  rw [CuLine.recall, List.getElem?_eq_getElem hn]
  simp [List.getD_eq_getElem?_getD, List.getElem?_eq_getElem hn]

theorem recall_chars {h : Hist} {hist : List (List (List Nat))} (hh : HistIs h hist) {n : Nat} (hn : n < hist.length) :
    ∀ c ∈ hist.getD n [] ++ ([] : List (List Nat)), IsChar c := by
  rw [List.append_nil, List.getD_eq_getElem?_getD, List.getElem?_eq_getElem hn]
  exact hh.chars _ (List.getElem_mem hn)

/-- A key does to the line of the code what it does to the characters. -/
theorem editKey_shows {orig : Nat} {h : Hist} {hist : List (List (List Nat))} (hh : HistIs h hist) {s : ESt} {l : CuLine} (hs : Shows s l)
    (hid : l.hid ≤ hist.length) (k : CuKey) (ht : Tame orig hist l k) :
    (∃ s', editKey orig h k.key s = .ok (.more s') ∧ Shows s' (l.press hist k)) ∧ (l.press hist k).hid ≤ hist.length := by
  obtain ⟨ht, hf⟩ := ht
  have hsl : s.line.length = l.before.flatten.length + l.after.flatten.length := by rw [hs.bytes]; simp
  cases k with
  | otherKey => exact ⟨⟨s, rfl, hs⟩, hid⟩
  | home =>
    refine ⟨⟨{ s with pos := 0 }, rfl, ?_, rfl, hs.hid, by simpa [CuLine.press] using hs.chars⟩, hid⟩
    simpa [CuLine.press, CuLine.bytes] using hs.line
  | toEnd =>
    refine ⟨⟨{ s with pos := s.line.length }, rfl, ?_, ?_, hs.hid, by simpa [CuLine.press] using hs.chars⟩, hid⟩
    · simpa [CuLine.press, CuLine.bytes] using hs.line
    · simp [CuLine.press, hs.bytes]
  | esc => exact ⟨⟨{ s with line := [], pos := 0 }, rfl, rfl, rfl, hs.hid, by simp [CuLine.press]⟩, hid⟩
  | left =>
    refine ⟨?_, by simp only [CuLine.press]; split <;> exact hid⟩
    simp only [CuKey.key, editKey, CuLine.press]
    cases hb : l.before.getLast? with
    | none =>
      have : l.before = [] := List.getLast?_eq_none_iff.1 hb
      rw [if_neg (by rw [hs.pos, this]; simp)]
      exact ⟨s, rfl, hs⟩
    | some c =>
      obtain ⟨b, hb'⟩ := List.getLast?_eq_some_iff.1 hb
      have h1 : c.length = 1 := ht c hb
      refine ⟨_, rfl, ?_, ?_, ?_, ?_⟩
      · rw [if_pos (by rw [hs.pos, hb']; simp [h1])]
        rw [hs.line, CuLine.bytes, CuLine.bytes, hb']
        simp
      · rw [if_pos (by rw [hs.pos, hb']; simp [h1])]
        simp only
        rw [hs.pos, hb']
        simp [h1]
      · rw [if_pos (by rw [hs.pos, hb']; simp [h1])]
        exact hs.hid
      · have := hs.chars
        rw [hb'] at this ⊢
        simpa using this
  | right =>
    refine ⟨?_, by simp only [CuLine.press]; split <;> exact hid⟩
    simp only [CuKey.key, editKey, CuLine.press]
    cases ha : l.after with
    | nil =>
      rw [if_neg (by rw [hs.pos, hsl, ha]; simp)]
      exact ⟨s, rfl, hs⟩
    | cons c rest =>
      have h1 : c.length = 1 := ht c (by rw [ha]; rfl)
      have hp : s.pos < s.line.length := by rw [hs.pos, hsl, ha]; simp; omega
      rw [if_pos hp]
      refine ⟨_, rfl, ?_, ?_, hs.hid, ?_⟩
      · rw [hs.line, CuLine.bytes, CuLine.bytes, ha]; simp
      · simp [hs.pos, h1]
      · have := hs.chars
        rw [ha] at this
        simpa using this
  | delete =>
    refine ⟨?_, hid⟩
    simp only [CuKey.key, editKey, CuLine.press]
    cases ha : l.after with
    | nil =>
      rw [if_neg (by rw [hs.pos, hsl, ha]; simp)]
      refine ⟨s, rfl, ?_, hs.pos, hs.hid, ?_⟩
      · rw [hs.line, CuLine.bytes, CuLine.bytes, ha]; rfl
      · have := hs.chars
        rw [ha] at this
        simpa using this
    | cons c rest =>
      have hc : IsChar c := hs.chars c (by rw [ha]; simp)
      have hrest : ∀ x ∈ rest, IsChar x := fun x hx => hs.chars x (by rw [ha]; simp [hx])
      have hp : s.pos < s.line.length := by
        rw [hs.pos, hsl, ha]
        have := List.length_pos_iff.2 hc.1
        simp
        omega
      rw [if_pos hp]
      refine ⟨_, rfl, ?_, hs.pos, hs.hid, ?_⟩
      · rw [hs.take, hs.drop, ha, nextLen_flatten hc hrest]
        simp [CuLine.bytes]
      · intro x hx
        simp only [List.tail_cons, List.mem_append] at hx
        rcases hx with hx | hx
        · exact hs.chars x (by simp [hx])
        · exact hrest x hx
  | back =>
    refine ⟨?_, hid⟩
    simp only [CuKey.key, editKey, CuLine.press]
    cases hb : l.before.getLast? with
    | none =>
      have hbn : l.before = [] := List.getLast?_eq_none_iff.1 hb
      rw [if_neg (by rw [hs.pos, hbn]; simp)]
      refine ⟨s, rfl, ?_, ?_, hs.hid, ?_⟩
      · rw [hs.line, CuLine.bytes, CuLine.bytes, hbn]; rfl
      · rw [hs.pos, hbn]; rfl
      · have := hs.chars
        rw [hbn] at this ⊢
        simpa using this
    | some c =>
      obtain ⟨b, hb'⟩ := List.getLast?_eq_some_iff.1 hb
      have hc : IsChar c := hs.chars c (by rw [hb']; simp)
      have hc0 := List.length_pos_iff.2 hc.1
      have hpos : s.pos = b.flatten.length + c.length := by rw [hs.pos, hb']; simp
      have hline : s.line = b.flatten ++ c ++ l.after.flatten := by rw [hs.bytes, hb']; simp
      have hprev : prevChar s.line s.pos = b.flatten.length := by
        rw [prevChar, if_neg (by omega), hline]
        exact backOver_flatten hc _ (by omega) (by omega)
      rw [if_pos (by omega), hprev]
      refine ⟨_, rfl, ?_, ?_, hs.hid, ?_⟩
      · simp only [CuLine.bytes]
        rw [hs.drop, hline, hb', List.append_assoc, List.take_left]
        simp
      · simp [hb']
      · intro x hx
        rw [hb'] at hx
        simp only [List.dropLast_concat, List.mem_append] at hx
        exact hs.chars x (by rw [hb']; simp only [List.mem_append]; rcases hx with hx | hx <;> simp [hx])
  | up =>
    simp only [CuKey.key, editKey, CuLine.press]
    by_cases he : hist = []
    · subst he
      have hl : l.hid = 0 := by simpa using hid
      have hln : h.entries.length = 0 := by rw [hh.len]; rfl
      rw [hs.hid, hl, hln]
      simp only [CuLine.recall, List.getElem?_nil]
      refine ⟨⟨_, rfl, ?_⟩, by simp⟩
      exact ⟨by simpa [CuLine.bytes] using hs.line, hs.pos, rfl, hs.chars⟩
    · have hl0 : 0 < hist.length := List.length_pos_iff.2 he
      have hn : l.hid - 1 < hist.length := by omega
      have hidx : (if s.hid > 0 then s.hid - 1 else s.hid) = ((l.hid - 1 : Nat) : Int) := by
        rw [hs.hid]; split <;> omega
      simp only [CuLine.press, recall_some hn, CuLine.bytes, List.append_nil] at hf
      rw [hidx, hh.len, if_pos (by omega), showEntry_ok hh hn s hf, recall_some hn]
      exact ⟨⟨_, rfl, by simp [CuLine.bytes], rfl, rfl, recall_chars hh hn⟩, by simp only; omega⟩
  | down =>
    have hne : hist ≠ [] := ht
    have hl0 : 0 < hist.length := List.length_pos_iff.2 hne
    simp only [CuKey.key, editKey, CuLine.press]
    have hn : min (l.hid + 1) (hist.length - 1) < hist.length := by omega
    have hidx : (if s.hid < (h.entries.length : Int) - 1 then s.hid + 1 else (h.entries.length : Int) - 1) =
        ((min (l.hid + 1) (hist.length - 1) : Nat) : Int) := by
      rw [hs.hid, hh.len]; split <;> omega
    simp only [CuLine.press, recall_some hn, CuLine.bytes, List.append_nil] at hf
    rw [hidx, hh.len, if_neg (by omega), if_pos (by omega), showEntry_ok hh hn s hf, recall_some hn]
    exact ⟨⟨_, rfl, by simp [CuLine.bytes], rfl, rfl, recall_chars hh hn⟩, by simp only; omega⟩
  | tab c =>
    cases c with
    | none => exact ⟨⟨s, rfl, hs⟩, hid⟩
    | some c =>
      refine ⟨?_, hid⟩
      obtain ⟨hc, hle⟩ := ht
      simp only [CuLine.press, CuLine.bytes, List.flatten_append, List.length_append] at hf
      simp only [CuKey.key, Option.map_some, editKey, CuLine.press]
      rw [if_neg (by omega), if_neg]
      · rw [hs.take, hs.drop, goOn_ok (by simp only [List.length_append]; omega)]
        refine ⟨_, rfl, ?_, ?_, hs.hid, ?_⟩
        · simp [CuLine.bytes]
        · simp [hs.pos]
        · intro x hx
          simp only [List.mem_append] at hx
          rcases hx with (hx | hx) | hx
          · exact hs.chars x (by simp [hx])
          · exact hc x hx
          · exact hs.chars x (by simp [hx])
      · rintro ⟨h1, h2⟩
        have hcn : c ≠ [] := by rintro rfl; exact h2 rfl
        have := hle hcn
        rw [hs.pos] at h1
        omega
  | char u =>
    refine ⟨?_, hid⟩
    have hu : IsChar u := ht
    simp only [CuLine.press, CuLine.bytes, List.flatten_append, List.length_append, List.flatten_cons, List.flatten_nil, List.append_nil] at hf
    simp only [CuKey.key, editKey, CuLine.press]
    rw [putChar_shows hs hu (by omega)]
    refine ⟨_, rfl, ?_, ?_, hs.hid, ?_⟩
    · simp [CuLine.bytes]
    · simp [hs.pos]
    · intro x hx
      simp only [List.mem_append, List.mem_singleton] at hx
      rcases hx with (hx | rfl) | hx
      · exact hs.chars x (by simp [hx])
      · exact hu
      · exact hs.chars x (by simp [hx])

theorem editKeys_shows {orig : Nat} {h : Hist} {hist : List (List (List Nat))} (hh : HistIs h hist) (rest : List EKey) :
    ∀ (ks : List CuKey) {s : ESt} {l : CuLine}, Shows s l → l.hid ≤ hist.length → TameAll orig hist l ks →
    ∃ s', editKeys orig h (ks.map CuKey.key ++ rest) s = editKeys orig h rest s' ∧ Shows s' (l.presses hist ks) ∧
      (l.presses hist ks).hid ≤ hist.length
  | [], s, l, hs, hid, _ => ⟨s, rfl, hs, hid⟩
  | k :: ks, s, l, hs, hid, ht => by
    obtain ⟨⟨s1, e1, hs1⟩, hid1⟩ := editKey_shows hh hs hid k ht.1
    obtain ⟨s2, e2, hs2⟩ := editKeys_shows hh rest ks hs1 hid1 ht.2
    refine ⟨s2, ?_, hs2⟩
    rw [List.map_cons, List.cons_append, editKeys, e1]
    exact e2

/-! ### The history -/

theorem shift_front {k : Nat} {same : Nat → Nat → Bool} {l : List Entry} (hk : k + 1 ≤ l.length) {i : Nat} (hi : i < k) :
    (shiftBytes k same l)[i]? = l[i + 1]? := by
  rw [shiftBytes, List.append_assoc, List.getElem?_append_left (by simp; omega)]
  rw [List.getElem?_take_of_lt hi, List.getElem?_drop, Nat.add_comm]

theorem shift_at {k : Nat} {same : Nat → Nat → Bool} {l : List Entry} {e : Entry} (he : l[k]? = some e) :
    ∃ f, (shiftBytes k same l)[k]? = some f ∧ f.block = e.block := by
  have hk : k < l.length := (List.getElem?_eq_some_iff.1 he).1
  have hlen : ((l.drop 1).take k).length = k := by simp; omega
  have hd : (l.drop k).take 1 = [e] := by
    rw [List.drop_eq_getElem_cons hk]
    simp [(List.getElem?_eq_some_iff.1 he).2]
  rw [shiftBytes, List.append_assoc, List.getElem?_append_right (by omega), hlen, Nat.sub_self, hd]
  cases l[k + 1]? with
  | none => exact ⟨e, by simp, rfl⟩
  | some f =>
    by_cases hs : same e.block f.block = true
    · exact ⟨e, by simp [hs], rfl⟩
    · exact ⟨{ e with wild := true }, by simp [hs], rfl⟩

theorem shift_length {k : Nat} {same : Nat → Nat → Bool} {l : List Entry} (hk : k + 1 ≤ l.length) :
    (shiftBytes k same l).length = l.length := by
  simp [shiftBytes]; omega

/-- The history before it is full. -/
structure Early (n : Nat) (h : Hist) : Prop where
  len : h.entries.length = n
  block : ∀ i < n, ∃ t, h.entries[i]? = some ⟨i, false, t⟩
  freed : h.freed = []
  next : h.next = n

/-- The history after `j` entries were shifted out. -/
structure Late (k j : Nat) (h : Hist) : Prop where
  len : h.entries.length = histSize
  block : ∀ i, i + j ≤ k → ∃ t, h.entries[i]? = some ⟨j + i, false, t⟩
  twice : ∃ e, h.entries[k + 1 - j]? = some e ∧ e.block = k
  freed : ∀ b, b ∈ h.freed ↔ b < j

/-- The entries of a history, one after the other. -/
def histAll (k : Nat) (same : Nat → Nat → Bool) : List (List Nat) → Hist → Res Hist
  | [], h => .ok h
  | l :: ls, h => (histAdd k same l h).bind (histAll k same ls)

theorem early_step {k n : Nat} {same : Nat → Nat → Bool} {h : Hist} (he : Early n h) (hn : n < histSize) (l : List Nat) :
    ∃ h', histAdd k same l h = .ok h' ∧ Early (n + 1) h' := by
  rw [histAdd, if_pos (by rw [he.len]; exact hn)]
  refine ⟨_, rfl, by simp [he.len], ?_, he.freed, by simp [he.next]⟩
  intro i hi
  by_cases h1 : i < n
  · obtain ⟨t, ht⟩ := he.block i h1
    exact ⟨t, by rw [List.getElem?_append_left (by rw [he.len]; exact h1)]; exact ht⟩
  · have : i = n := by omega
    subst this
    refine ⟨if l.getLast? = some 10 then l.dropLast else l, ?_⟩
    rw [List.getElem?_append_right (by rw [he.len]; exact Nat.le_refl _), he.len, Nat.sub_self, he.next]
    rfl

theorem late_first {k : Nat} {same : Nat → Nat → Bool} (hk : 0 < k) (hk' : k + 1 < histSize) {h : Hist} (he : Early histSize h) (l : List Nat) :
    ∃ h', histAdd k same l h = .ok h' ∧ Late k 1 h' := by
  have hlen := he.len
  rw [histAdd, if_neg (by rw [hlen]; exact Nat.lt_irrefl _)]
  obtain ⟨t0, h0⟩ := he.block 0 (by simp [histSize])
  cases hent : h.entries with
  | nil => rw [hent] at hlen; simp [histSize] at hlen
  | cons e es =>
    rw [hent] at h0
    have h0 : e = ⟨0, false, t0⟩ := by simpa using h0
    subst h0
    simp only [he.freed, List.not_mem_nil, or_false, Bool.false_eq_true, ↓reduceIte]
    rw [← hent]
    have hsl : (shiftBytes k same h.entries).length = histSize := by rw [shift_length (by omega), hlen]
    refine ⟨_, rfl, ?_, ?_, ?_, ?_⟩
    · simp [hsl, histSize]
    · intro i hi
      obtain ⟨t, ht⟩ := he.block (i + 1) (by omega)
      refine ⟨t, ?_⟩
      simp only
      rw [List.getElem?_append_left (by simp [hsl]; omega), List.getElem?_take_of_lt (by omega), shift_front (by omega) (by omega), ht,
        Nat.add_comm]
    · obtain ⟨t, ht⟩ := he.block k (by omega)
      obtain ⟨f, hf, hb⟩ := shift_at (same := same) ht
      refine ⟨f, ?_, hb⟩
      simp only
      rw [show k + 1 - 1 = k from rfl, List.getElem?_append_left (by simp [hsl]; omega), List.getElem?_take_of_lt (by omega), hf]
    · intro b; simp

theorem late_step {k j : Nat} {same : Nat → Nat → Bool} (hj : 1 ≤ j) (hjk : j ≤ k) (hk' : k + 1 < histSize) {h : Hist} (he : Late k j h) (l : List Nat) :
    ∃ h', histAdd k same l h = .ok h' ∧ Late k (j + 1) h' := by
  have hlen := he.len
  rw [histAdd, if_neg (by rw [hlen]; exact Nat.lt_irrefl _)]
  obtain ⟨t0, h0⟩ := he.block 0 (by omega)
  cases hent : h.entries with
  | nil => rw [hent] at hlen; simp [histSize] at hlen
  | cons e es =>
    rw [hent] at h0
    have h0 : e = ⟨j + 0, false, t0⟩ := by simpa using h0
    subst h0
    simp only
    rw [if_neg (by rintro (h | h); cases h; rw [he.freed] at h; omega), ← hent]
    have hsl : (shiftBytes k same h.entries).length = histSize := by rw [shift_length (by omega), hlen]
    refine ⟨_, rfl, ?_, ?_, ?_, ?_⟩
    · simp [hsl, histSize]
    · intro i hi
      obtain ⟨t, ht⟩ := he.block (i + 1) (by omega)
      refine ⟨t, ?_⟩
      simp only
      rw [List.getElem?_append_left (by simp [hsl]; omega), List.getElem?_take_of_lt (by omega), shift_front (by omega) (by omega), ht]
      congr 2
      omega
    · obtain ⟨f, hf, hb⟩ := he.twice
      refine ⟨f, ?_, hb⟩
      simp only
      rw [List.getElem?_append_left (by simp [hsl]; omega), List.getElem?_take_of_lt (by omega), shift_front (by omega) (by omega), ← hf]
      congr 1
      omega
    · intro b
      simp only [List.mem_cons, he.freed]
      omega

theorem late_end {k : Nat} {same : Nat → Nat → Bool} {h : Hist} (he : Late k (k + 1) h) (l : List Nat) : histAdd k same l h = .ub := by
  have hlen := he.len
  rw [histAdd, if_neg (by rw [hlen]; exact Nat.lt_irrefl _)]
  obtain ⟨e, h0, hb⟩ := he.twice
  rw [Nat.sub_self] at h0
  cases hent : h.entries with
  | nil => simp [hent] at h0
  | cons x es =>
    rw [hent] at h0
    have h0 : x = e := by simpa using h0
    subst h0
    simp only
    rw [if_pos (.inr (by rw [he.freed, hb]; omega))]

theorem histAll_late {k : Nat} {same : Nat → Nat → Bool} (hk' : k + 1 < histSize) : ∀ (d j : Nat) {h : Hist}, 1 ≤ j → d + j = k + 1 →
    Late k j h → ∀ ls : List (List Nat), d < ls.length → histAll k same ls h = .ub := by
  intro d
  induction d with
  | zero =>
    intro j h hj hd he ls hl
    cases ls with
    | nil => simp at hl
    | cons l ls =>
      have : j = k + 1 := by omega
      subst this
      rw [histAll, late_end he]
      rfl
  | succ d ih =>
    intro j h hj hd he ls hl
    cases ls with
    | nil => simp at hl
    | cons l ls =>
      obtain ⟨h', e, he'⟩ := late_step (same := same) hj (by omega) hk' he l
      rw [histAll, e]
      exact ih (j + 1) (by omega) (by omega) he' ls (by simpa using hl)

theorem histAll_early {k : Nat} {same : Nat → Nat → Bool} (hk : 0 < k) (hk' : k + 1 < histSize) : ∀ (d n : Nat) {h : Hist}, d + n = histSize →
    Early n h → ∀ ls : List (List Nat), d + (k + 2) ≤ ls.length → histAll k same ls h = .ub := by
  intro d
  induction d with
  | zero =>
    intro n h hn he ls hl
    cases ls with
    | nil => simp at hl
    | cons l ls =>
      have : n = histSize := by omega
      subst this
      obtain ⟨h', e, he'⟩ := late_first (same := same) hk hk' he l
      rw [histAll, e]
      exact histAll_late hk' k 1 (Nat.le_refl 1) rfl he' ls (by simp at hl; omega)
  | succ d ih =>
    intro n h hn he ls hl
    cases ls with
    | nil => simp at hl
    | cons l ls =>
      obtain ⟨h', e, he'⟩ := early_step (k := k) (same := same) he (by omega) l
      rw [histAll, e]
      exact ih (n + 1) (by omega) he' ls (by simp at hl; omega)

end PBat.Spec
