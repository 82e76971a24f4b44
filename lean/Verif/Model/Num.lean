import Verif.Model.Var
/-
Numbers: `strtol` with base 0, and `printf("%d")`. C library.
-/
namespace PBat

/-- The value of a digit in bases up to 36; 36 if it is none. -/
def digitVal (c : Char) : Nat :=
  if '0' ≤ c ∧ c ≤ '9' then c.toNat - '0'.toNat
  else if 'a' ≤ c ∧ c ≤ 'z' then c.toNat - 'a'.toNat + 10
  else if 'A' ≤ c ∧ c ≤ 'Z' then c.toNat - 'A'.toNat + 10
  else 36

/-- Reading digits of a base: the value and the rest. -/
def scanBase (b acc : Nat) : List Char → Nat × List Char
  | [] => (acc, [])
  | c :: r => if digitVal c < b then scanBase b (acc * b + digitVal c) r else (acc, c :: r)

/-- The unsigned part of `strtol(s, &end, 0)`; `none` if there is no number. -/
def scanNumber : List Char → Option (Nat × List Char)
  | [] => none
  | '0' :: r =>
    match r with
    | x :: d :: r' => if (x = 'x' ∨ x = 'X') ∧ digitVal d < 16 then some (scanBase 16 0 (d :: r')) else some (scanBase 8 0 r)
    | _ => some (scanBase 8 0 r)
  | c :: r => if digitVal c < 10 then some (scanBase 10 0 (c :: r)) else none

/-- The value `strtol(s, &end, 0)` would have without bounds, and `end`. -/
def strtolVal (s : List Char) : Int × List Char :=
  match s.dropWhile isSpace with
  | '-' :: r => match scanNumber r with
    | some (n, e) => (-(n : Int), e)
    | none => (0, s)
  | '+' :: r => match scanNumber r with
    | some (n, e) => (n, e)
    | none => (0, s)
  | r => match scanNumber r with
    | some (n, e) => (n, e)
    | none => (0, s)

theorem scanBase_length (b acc : Nat) (s : List Char) : (scanBase b acc s).2.length ≤ s.length := by
  induction s generalizing acc with
  | nil => simp [scanBase]
  | cons c r ih =>
    rw [scanBase]
    split
    · have := ih (acc * b + digitVal c); simp; omega
    · simp

theorem scanNumber_length (s : List Char) (n : Nat) (e : List Char) (h : scanNumber s = some (n, e)) : e.length < s.length := by
  unfold scanNumber at h
  split at h
  · cases h
  · split at h
    · split at h
      all_goals
        simp only [Option.some.injEq] at h
        have h2 := congrArg (fun x => x.2.length) h
        simp only at h2
        rw [← h2]
        have := scanBase_length 16 0
        have := scanBase_length 8 0
        grind
    · simp only [Option.some.injEq] at h
      have h2 := congrArg (fun x => x.2.length) h
      simp only at h2
      rw [← h2]
      have := scanBase_length 8 0
      grind
  · next c r _ =>
    split at h
    · next hd =>
      simp only [Option.some.injEq] at h
      have h2 := congrArg (fun x => x.2.length) h
      simp only at h2
      rw [← h2, scanBase, if_pos hd]
      have := scanBase_length 10 (0 * 10 + digitVal c) r
      rw [List.length_cons]
      omega
    · cases h

theorem strtolVal_length (s : List Char) : (strtolVal s).2.length ≤ s.length := by
  have hd : (s.dropWhile isSpace).length ≤ s.length := (List.dropWhile_suffix isSpace).length_le
  unfold strtolVal
  split
  · next h =>
    rw [h] at hd
    split
    · next h2 => have := scanNumber_length _ _ _ h2; simp at hd; simp; omega
    · simp
  · next h =>
    rw [h] at hd
    split
    · next h2 => have := scanNumber_length _ _ _ h2; simp at hd; simp; omega
    · simp
  · split
    · next h2 => have := scanNumber_length _ _ _ h2; simp; omega
    · simp

/-- `strtol(s, &end, 0)`, `long` having 64 bits. -/
def strtol0 (s : List Char) : Int × List Char :=
  ((if (strtolVal s).1 < -2 ^ 63 then -2 ^ 63 else if 2 ^ 63 ≤ (strtolVal s).1 then 2 ^ 63 - 1 else (strtolVal s).1), (strtolVal s).2)

/-- A `long` assigned to an `int`. -/
def longToInt (n : Int) : Int := toInt32 (n % 2 ^ 32).toNat

/-- The decimal digits of a number. -/
def natText (n : Nat) : List Char :=
  if n < 10 then [Char.ofNat ('0'.toNat + n)] else natText (n / 10) ++ [Char.ofNat ('0'.toNat + n % 10)]

/-- `printf("%d", i)`. C library. -/
def intText (i : Int) : List Char := if i < 0 then '-' :: natText (-i).toNat else natText i.toNat

end PBat
