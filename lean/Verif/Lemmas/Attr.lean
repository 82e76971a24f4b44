import Verif.Model.Attr
import Verif.Spec.Attr
/-
Lemmas about attribute filters.
-/
namespace PBat
open Spec

/-- The flag of an attribute. -/
def flagOf : Attr → BitVec 16
  | .void => 0x04#16
  | .archive => 0x100#16
  | .readonly => 0x01#16
  | .hidden => 0x10#16
  | .system => 0x40#16
  | .dir => 0x400#16

theorem attrFlag_letter {c d : Char} {a : Attr} (h : AttrLetter d a) (hc : c.toUpper = d) : attrFlag c = flagOf a := by
  unfold attrFlag
  rw [hc]
  cases h <;> rfl

theorem letter_ne_minus {c d : Char} {a : Attr} (h : AttrLetter d a) (hc : c.toUpper = d) : c.toUpper ≠ '-' := by
  rw [hc]
  cases h <;> decide

theorem flagOf_ne (a : Attr) : flagOf a ≠ 0#16 := by cases a <;> decide

/-- The flags of a list of requests. -/
def flagsOf : List (Attr × Bool) → BitVec 16
  | [] => 0#16
  | (a, true) :: l => flagOf a ||| flagsOf l
  | (a, false) :: l => (flagOf a ||| (flagOf a <<< 1)) ||| flagsOf l

theorem makeAttrLoop_text {s l} (h : AttrText s l) : ∀ attr, makeAttrLoop false attr s = attr ||| flagsOf l := by
  induction h with
  | nil => intro attr; simp [makeAttrLoop, flagsOf]
  | @present c d a s l h hc _ ih =>
    intro attr
    rw [makeAttrLoop]
    simp only [if_neg (letter_ne_minus h hc), Bool.false_eq_true, false_and, if_false]
    rw [ih, attrFlag_letter h hc, flagsOf, BitVec.or_assoc]
  | @absent c d a s l h hc _ ih =>
    intro attr
    rw [makeAttrLoop]
    simp only [show '-'.toUpper = '-' by decide, if_true, show attrFlag '-' = 0#16 by decide, ne_eq, not_true_eq_false, and_false, if_false]
    rw [makeAttrLoop]
    simp only [if_neg (letter_ne_minus h hc), attrFlag_letter h hc, ne_eq, flagOf_ne a, not_false_iff, and_self, if_true]
    rw [ih, flagsOf, BitVec.or_assoc, BitVec.or_zero]

theorem hasFlag_or (a b f : BitVec 16) : hasFlag (a ||| b) f = (hasFlag a f || hasFlag b f) := by
  unfold hasFlag
  rw [BitVec.and_comm, BitVec.and_or_distrib_left, BitVec.and_comm f a, BitVec.and_comm f b]
  generalize a &&& f = x
  generalize b &&& f = y
  by_cases hx : x = 0#16
  · subst hx; simp
  · have : x ||| y ≠ 0#16 := by
      intro h
      exact hx (BitVec.or_eq_zero_iff.1 h).1
    rw [bne_iff_ne.2 hx, bne_iff_ne.2 this, Bool.true_or]

theorem hasFlag_flags (a : Attr) (l : List (Attr × Bool)) : hasFlag (flagsOf l) (flagOf a) = l.any (·.1 == a) := by
  induction l with
  | nil => cases a <;> decide
  | cons x l ih =>
    obtain ⟨b, r⟩ := x
    cases r <;> simp only [flagsOf, hasFlag_or, ih, List.any_cons] <;> congr 1 <;> cases a <;> cases b <;> decide

theorem hasFlag_neg (a : Attr) (l : List (Attr × Bool)) : hasFlag (flagsOf l) (flagOf a <<< 1) = l.any (· == (a, false)) := by
  induction l with
  | nil => cases a <;> decide
  | cons x l ih =>
    obtain ⟨b, r⟩ := x
    cases r <;> simp only [flagsOf, hasFlag_or, ih, List.any_cons] <;> congr 1 <;> cases a <;> cases b <;> decide

/-- Consecutive cells are linked. -/
def Linked (next : Nat → Option Nat) : List Nat → Prop
  | [] => True
  | [_] => True
  | a :: b :: l => next a = some b ∧ Linked next (b :: l)

theorem linked_congr {f g : Nat → Option Nat} : ∀ {l : List Nat}, (∀ q ∈ l, l.getLast? ≠ some q → f q = g q) → l.Nodup → Linked f l → Linked g l
  | [], _, _, _ => trivial
  | [_], _, _, _ => trivial
  | a :: b :: l, h, hn, hl => by
    have hne : (a :: b :: l).getLast? ≠ some a := by
      rw [List.getLast?_cons_cons]
      intro he
      exact (List.nodup_cons.1 hn).1 (List.mem_of_getLast? he)
    refine ⟨(h a (by simp) hne) ▸ hl.1, linked_congr (fun q hq hq' => h q (by simp [hq]) ?_) (List.nodup_cons.1 hn).2 hl.2⟩
    rw [List.getLast?_cons_cons]; exact hq'

theorem linked_append {f : Nat → Option Nat} {p : Nat} : ∀ {l : List Nat}, Linked f l → (∀ m, l.getLast? = some m → f m = some p) → Linked f (l ++ [p])
  | [], _, _ => trivial
  | [a], _, h => ⟨h a rfl, trivial⟩
  | a :: b :: l, hl, h => ⟨hl.1, linked_append (l := b :: l) hl.2 (fun m hm => h m (by rw [List.getLast?_cons_cons]; exact hm))⟩

theorem chain_congr {f g : Nat → Option Nat} {p : Option Nat} {l : List Nat} (h : Chain f p l) (hfg : ∀ q ∈ l, f q = g q) : Chain g p l := by
  induction h with
  | nil => exact .nil
  | @cons p l _ ih => exact .cons (hfg p (by simp) ▸ ih (fun q hq => hfg q (by simp [hq])))

/-- A linked list whose last cell ends the list is a chain. -/
theorem chain_linked {f : Nat → Option Nat} : ∀ {l : List Nat}, Linked f l → (∀ m, l.getLast? = some m → f m = none) → Chain f l.head? l
  | [], _, _ => .nil
  | [a], _, h => .cons (by rw [h a rfl]; exact .nil)
  | a :: b :: l, hl, h => .cons (by rw [hl.1]; exact chain_linked (l := b :: l) hl.2 (fun m hm => h m (by rw [List.getLast?_cons_cons]; exact hm)))

/-- What holds between two turns of the loop: `done` are the cells treated, `rest` those to come. -/
structure SplitInv (ok : Nat → Bool) (next0 : Nat → Option Nat) (done rest : List Nat) (s : SplitState) : Prop where
  nodup : (done ++ rest).Nodup
  inp : Chain s.next s.inp rest
  sel : s.sel = (done.filter ok).head?
  mat : s.mat = (done.filter ok).getLast?
  lsel : Linked s.next (done.filter ok)
  rem : s.rem = (done.filter (!ok ·)).head?
  unm : s.unm = (done.filter (!ok ·)).getLast?
  lrem : Linked s.next (done.filter (!ok ·))
  out : ∀ q, q ∉ done ++ rest → s.next q = next0 q

theorem filter_disj {ok : Nat → Bool} {l : List Nat} {q : Nat} (h : q ∈ l.filter ok) (h' : q ∈ l.filter (!ok ·)) : False := by
  have h1 := (List.mem_filter.1 h).2
  have h2 := (List.mem_filter.1 h').2
  simp [h1] at h2

theorem head?_append_one (l : List Nat) (p : Nat) : (l ++ [p]).head? = some (l.head?.getD p) := by cases l <;> rfl

theorem setNext_ne {f : Nat → Option Nat} {m q : Nat} {v : Option Nat} (h : q ≠ m) : setNext f m v q = f q := if_neg h

theorem splitStep_inv {ok : Nat → Bool} {next0 : Nat → Option Nat} {done rest : List Nat} {p : Nat} {s : SplitState}
    (h : SplitInv ok next0 done (p :: rest) s) : SplitInv ok next0 (done ++ [p]) rest (splitStep ok s) := by
  have hnd : (done ++ [p] ++ rest).Nodup := by rw [List.append_assoc]; exact h.nodup
  have hout : ∀ q, q ∉ done ++ [p] ++ rest → q ∉ done ++ p :: rest := fun q hq => by rwa [List.append_assoc] at hq
  obtain ⟨hnd1, hnd2, hdis⟩ := List.nodup_append.1 h.nodup
  have hpr : p ∉ rest := (List.nodup_cons.1 hnd2).1
  have hpd : p ∉ done := fun hp => hdis p hp p (by simp) rfl
  have hin := h.inp
  obtain ⟨nx, inp, mat, unm, sel, rem⟩ := s
  cases hin with
  | cons hch =>
  have hsel := h.sel; have hmat := h.mat; have hrem := h.rem; have hunm := h.unm
  have hls := h.lsel; have hlr := h.lrem; have ho := h.out
  simp only at hsel hmat hrem hunm hls hlr ho hch
  unfold splitStep
  by_cases hok : ok p = true
  · have hf : (done ++ [p]).filter ok = done.filter ok ++ [p] := by simp [List.filter_append, hok]
    have hf' : (done ++ [p]).filter (!ok ·) = done.filter (!ok ·) := by simp [List.filter_append, hok]
    simp only [hok, if_true]
    cases mat with
    | none =>
      have hnil : done.filter ok = [] := List.getLast?_eq_none_iff.1 hmat.symm
      simp only
      exact { nodup := hnd, inp := hch, sel := by rw [hf, hnil]; rfl, mat := by rw [hf, hnil]; rfl, lsel := by rw [hf, hnil]; trivial,
              rem := by rw [hf']; exact hrem, unm := by rw [hf']; exact hunm, lrem := by rw [hf']; exact hlr,
              out := fun q hq => ho q (hout q hq) }
    | some m =>
      have hmm := List.mem_of_getLast? hmat.symm
      have hmd := (List.mem_filter.1 hmm).1
      have hmp : p ≠ m := fun e => hpd (e ▸ hmd)
      have hmr : m ∉ rest := fun e => hdis m hmd m (by simp [e]) rfl
      simp only
      refine { nodup := hnd, inp := ?_, sel := ?_, mat := ?_, lsel := ?_, rem := ?_, unm := ?_, lrem := ?_, out := ?_ }
      · simp only [setNext_ne hmp]
        exact chain_congr hch (fun q hq => by rw [setNext_ne (fun (e : q = m) => hmr (e ▸ hq))])
      · rw [hf, hsel, head?_append_one]
        cases hh : (done.filter ok).head? with
        | none => rw [List.head?_eq_none_iff.1 hh] at hmm; simp at hmm
        | some x => rfl
      · rw [hf]; simp
      · rw [hf]
        apply linked_append
        · refine linked_congr (fun q hq hq' => ?_) (hnd1.filter _) hls
          exact (setNext_ne (fun (e : q = m) => hq' (by rw [← hmat, e]))).symm
        · intro m' hm'
          rw [← hmat] at hm'
          cases hm'
          simp [setNext]
      · rw [hf']; exact hrem
      · rw [hf']; exact hunm
      · rw [hf']
        refine linked_congr (fun q hq _ => ?_) (hnd1.filter _) hlr
        refine (setNext_ne ?_).symm
        rintro rfl
        exact filter_disj hmm hq
      · intro q hq
        rw [← ho q (hout q hq)]
        refine setNext_ne ?_
        rintro rfl
        exact hq (by simp [hmd])
  · have hf : (done ++ [p]).filter ok = done.filter ok := by simp [List.filter_append, hok]
    have hf' : (done ++ [p]).filter (!ok ·) = done.filter (!ok ·) ++ [p] := by simp [List.filter_append, hok]
    simp only [hok, if_false, Bool.false_eq_true]
    cases unm with
    | none =>
      have hnil : done.filter (!ok ·) = [] := List.getLast?_eq_none_iff.1 hunm.symm
      simp only
      exact { nodup := hnd, inp := hch, rem := by rw [hf', hnil]; rfl, unm := by rw [hf', hnil]; rfl, lrem := by rw [hf', hnil]; trivial,
              sel := by rw [hf]; exact hsel, mat := by rw [hf]; exact hmat, lsel := by rw [hf]; exact hls,
              out := fun q hq => ho q (hout q hq) }
    | some m =>
      have hmm := List.mem_of_getLast? hunm.symm
      have hmd := (List.mem_filter.1 hmm).1
      have hmp : p ≠ m := fun e => hpd (e ▸ hmd)
      have hmr : m ∉ rest := fun e => hdis m hmd m (by simp [e]) rfl
      simp only
      refine { nodup := hnd, inp := ?_, sel := ?_, mat := ?_, lsel := ?_, rem := ?_, unm := ?_, lrem := ?_, out := ?_ }
      · simp only [setNext_ne hmp]
        exact chain_congr hch (fun q hq => by rw [setNext_ne (fun (e : q = m) => hmr (e ▸ hq))])
      · rw [hf]; exact hsel
      · rw [hf]; exact hmat
      · rw [hf]
        refine linked_congr (fun q hq _ => ?_) (hnd1.filter _) hls
        refine (setNext_ne ?_).symm
        rintro rfl
        exact filter_disj hq hmm
      · rw [hf', hrem, head?_append_one]
        cases hh : (done.filter (!ok ·)).head? with
        | none => rw [List.head?_eq_none_iff.1 hh] at hmm; simp at hmm
        | some x => rfl
      · rw [hf']; simp
      · rw [hf']
        apply linked_append
        · refine linked_congr (fun q hq hq' => ?_) (hnd1.filter _) hlr
          exact (setNext_ne (fun (e : q = m) => hq' (by rw [← hunm, e]))).symm
        · intro m' hm'
          rw [← hunm] at hm'
          cases hm'
          simp [setNext]
      · intro q hq
        rw [← ho q (hout q hq)]
        refine setNext_ne ?_
        rintro rfl
        exact hq (by simp [hmd])

theorem splitRun_inv {ok : Nat → Bool} {next0 : Nat → Option Nat} : ∀ (rest done : List Nat) (s : SplitState),
    SplitInv ok next0 done rest s → SplitInv ok next0 (done ++ rest) [] (splitRun ok rest.length s)
  | [], done, s, h => by simpa [splitRun] using h
  | p :: rest, done, s, h => by
    have := splitRun_inv rest (done ++ [p]) _ (splitStep_inv h)
    rw [List.append_assoc] at this
    exact this

end PBat
