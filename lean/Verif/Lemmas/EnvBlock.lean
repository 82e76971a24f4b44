import Verif.Lemmas.Env
/-
Helper lemmas for the environment block.
-/
namespace PBat

/-- Specification of an environment block reader: the strings up to the first empty one, and the bytes
after it; `none` when the bytes run out. -/
def Spec.readBlock (acc : List Char) : List Char → Option (List (List Char) × List Char)
  | [] => none
  | c :: cs =>
    if c = NUL then
      if acc = [] then some ([], cs)
      else (Spec.readBlock [] cs).map fun r => (acc :: r.1, r.2)
    else Spec.readBlock (acc ++ [c]) cs

/-- The strings `NAME=VALUE` of the defined variables. -/
def Spec.strings (vs : List Var) : List (List Char) :=
  vs.filterMap fun v => v.name.map fun n => n.txt ++ '=' :: v.content

open Spec

/-- The bytes of the entries. -/
def blockBytes (vs : List Var) : List Char := (strings vs).flatMap (· ++ [NUL])

theorem blockBytes_nil : blockBytes [] = [] := rfl

theorem blockBytes_dead {v : Var} {vs : List Var} (h : v.name = none) : blockBytes (v :: vs) = blockBytes vs := by
  simp [blockBytes, strings, h]

theorem blockBytes_live {v : Var} {vs : List Var} {n : CPtr} (h : v.name = some n) :
    blockBytes (v :: vs) = blockEntry n v ++ blockBytes vs := by
  simp [blockBytes, strings, h, blockEntry]

theorem blockSize_eq (vs : List Var) : blockSize vs = (blockBytes vs).length := by
  induction vs with
  | nil => rfl
  | cons v vs ih =>
    cases h : v.name with
    | none => rw [blockBytes_dead h]; simp only [blockSize, h]; exact ih
    | some n => rw [blockBytes_live h]; simp only [blockSize, h, ih, blockEntry]; simp; omega

theorem wr_eq (b : List Char) (p : Nat) (x : List Char) (h : p + x.length ≤ b.length) :
    wr b p x = some (b.take p ++ x ++ b.drop (p + x.length)) := by
  unfold wr; rw [if_pos h]

theorem blockFill_spec (vs : List Var) (b : List Char) (p : Nat) (h : p + (blockBytes vs).length ≤ b.length) :
    blockFill b p vs = some (b.take p ++ blockBytes vs ++ b.drop (p + (blockBytes vs).length),
      p + (blockBytes vs).length) := by
  induction vs generalizing b p with
  | nil => simp [blockFill, blockBytes_nil]
  | cons v vs ih =>
    cases hn : v.name with
    | none =>
      rw [blockBytes_dead hn] at h ⊢
      simp only [blockFill, hn]
      exact ih b p h
    | some n =>
      rw [blockBytes_live hn] at h ⊢
      simp only [List.length_append] at h ⊢
      have hlen : v.content.length + n.txt.length + 2 = (blockEntry n v).length := by
        simp [blockEntry]; omega
      simp only [blockFill, hn, hlen, wr_eq b p (blockEntry n v) (by omega), Option.bind_eq_bind, Option.bind_some]
      have hl : (b.take p ++ blockEntry n v).length = p + (blockEntry n v).length := by
        simp; omega
      rw [ih]
      · congr 2
        · rw [List.take_left' hl]
          rw [List.drop_append, hl, List.drop_eq_nil_of_le (by omega), List.drop_drop]
          simp only [List.append_assoc, List.nil_append]
          congr 4
          omega
        · omega
      · simp; omega

theorem envBlock_eq (g : Nat → Char) (e : EnvBuf) :
    envBlock g e = some (blockBytes e.vars ++ [NUL], (blockBytes e.vars).length + 1) := by
  unfold envBlock
  simp only [blockSize_eq, Option.bind_eq_bind]
  rw [blockFill_spec _ _ _ (by simp)]
  simp only [List.take_zero, List.nil_append, Nat.zero_add, Option.bind_some]
  rw [wr_eq _ _ _ (by simp)]
  simp only [Option.bind_some, pure]
  congr 2
  rw [List.take_left]
  simp

theorem readBlock_text (acc s rest : List Char) (h : NUL ∉ s) (hne : acc ++ s ≠ []) :
    readBlock acc (s ++ NUL :: rest) = (readBlock [] rest).map fun r => ((acc ++ s) :: r.1, r.2) := by
  induction s generalizing acc with
  | nil => simp only [List.append_nil] at hne ⊢; simp [readBlock, hne]
  | cons c s ih =>
    simp only [List.mem_cons, not_or] at h
    simp only [List.cons_append, readBlock, if_neg (Ne.symm h.1)]
    rw [ih _ h.2 (by simp)]
    simp

theorem readBlock_bytes (ss : List (List Char)) (h : ∀ s ∈ ss, NUL ∉ s ∧ s ≠ []) (rest : List Char) :
    readBlock [] (ss.flatMap (· ++ [NUL]) ++ NUL :: rest) = some (ss, rest) := by
  induction ss with
  | nil => simp [readBlock]
  | cons s ss ih =>
    have hs := h s (by simp)
    simp only [List.flatMap_cons, List.append_assoc, List.cons_append, List.nil_append]
    rw [readBlock_text [] s _ hs.1 (by simpa using hs.2), ih fun x hx => h x (by simp [hx])]
    rfl

end PBat
