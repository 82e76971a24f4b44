import Verif.Model.Str
/-
Model of the quote-aware searches of `libpbat/cmdlib/pBat_String.c`.  Pointers are absolute indices.
-/
namespace PBat

theorem searchTok_lt (p : Char → Bool) (s : List Char) (i : Nat) (h : searchTok p s = some i) :
    i < s.length := by
  fun_induction searchTok p s generalizing i with
  | case1 => simp at h
  | case2 s seg c rest heq hok =>
    have := strpbrk_length p s
    rw [heq] at this
    simp at h this
    omega
  | case3 s seg c rest heq hok ih =>
    have := strpbrk_length p s
    rw [heq] at this
    simp at h this
    obtain ⟨a, ha, rfl⟩ := h
    have := ih a ha
    omega

theorem searchFrom_bounds {p : Char → Bool} {s : List Char} {k i : Nat}
    (h : searchFrom p s k = some i) : k ≤ i ∧ i < s.length := by
  simp only [searchFrom, Option.map_eq_some_iff] at h
  obtain ⟨a, ha, rfl⟩ := h
  have := searchTok_lt p _ _ ha
  simp at this
  omega

/-- `strpbrk(s + k, ...)` as an absolute index. -/
def strpbrkFrom (p : Char → Bool) (s : List Char) (k : Nat) : Option Nat :=
  match strpbrk p (s.drop k) with
  | (_, []) => none
  | (seg, _ :: _) => some (k + seg.length)

theorem strpbrkFrom_bounds {p : Char → Bool} {s : List Char} {k i : Nat}
    (h : strpbrkFrom p s k = some i) : k ≤ i ∧ i < s.length := by
  unfold strpbrkFrom at h
  have := strpbrk_length p (s.drop k)
  split at h
  · simp at h
  · next heq =>
    rw [heq] at this
    simp at h this
    omega

/-- The quote loop, libpbat/cmdlib/pBat_String.c:252-265 and 358-371: advance `lpNextQuote` past `nxt`,
flipping `i` for each quote.  Returns the final `lpNextQuote` and `i`. -/
def quoteLoop (s : List Char) (nxt : Nat) (q : Option Nat) (i : Nat) : Option Nat × Nat :=
  match q with
  | none => (none, i)
  | some q =>
    if q ≤ nxt then
      match h : searchFrom (· == '"') s (q + 1) with
      | none => (none, (i + 1) % 2)
      | some q' => quoteLoop s nxt (some q') ((i + 1) % 2)
    else (some q, i)
termination_by s.length - q.getD s.length
decreasing_by
  have := searchFrom_bounds h
  simp
  omega

theorem quoteLoop_fst_bounds {s : List Char} {nxt : Nat} {q : Option Nat} {i q' : Nat}
    (h : (quoteLoop s nxt q i).1 = some q') : nxt < q' := by
  fun_induction quoteLoop s nxt q i with
  | case1 => simp at h
  | case2 => simp at h
  | case3 => rename_i ih; exact ih h
  | case4 => simp at h; omega

/-- `pBat_SearchChar_OutQuotes` and `pBat_SearchToken_OutQuotes`, libpbat/cmdlib/pBat_String.c:226-330 and
332-428 (same text but for `strchr`/`strpbrk`): the outer loop, with `ch` for `lpCh`, `q` for
`lpNextQuote`. -/
def outQuotesLoop (p : Char → Bool) (s : List Char) (ch : Nat) (q : Option Nat) : Option Nat :=
  match h : strpbrkFrom p s ch with
  | none => none
  | some nxt =>
    -- lines 346-347 with lpNextQuote != NULL: enter the check only if the hit is at or after the quote
    if q.any (· ≤ nxt) then
      match h2 : quoteLoop s nxt q 1 with
      | (none, i) =>
        if i = 0 then none
        else if scanBack true ((s.take nxt).drop ch).reverse then some nxt
        else outQuotesLoop p s (nxt + 1) none
      | (some q', i) =>
        if i = 0 then outQuotesLoop p s (q' + 1) (searchFrom (· == '"') s (q' + 1))
        else if scanBack true ((s.take nxt).drop ch).reverse then some nxt
        else outQuotesLoop p s (nxt + 1) (some q')
    else if scanBack true ((s.take nxt).drop ch).reverse then some nxt
    else outQuotesLoop p s (nxt + 1) q
termination_by s.length - ch
decreasing_by
  all_goals have := strpbrkFrom_bounds h
  · omega
  · have := quoteLoop_fst_bounds (q' := q') (s := s) (nxt := nxt) (q := q) (i := 1) (by rw [h2])
    omega
  · omega
  · omega

/-- Entry point, lines 236 and 342. -/
def searchOutQuotes (p : Char → Bool) (s : List Char) : Option Nat :=
  outQuotesLoop p s 0 (searchFrom (· == '"') s 0)

/-- `pBat_SearchToken_Hybrid`, libpbat/cmdlib/pBat_String.c:430-450. -/
def searchHybrid (p q : Char → Bool) (s : List Char) : Option Nat :=
  match searchTok p s, searchOutQuotes q s with
  | none, none => none
  | none, some qres => some qres
  | some res, none => some res
  | some res, some qres => if res > qres then some qres else some res

end PBat
