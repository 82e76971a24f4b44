import Verif.Lemmas.SetCmd
import Verif.Lemmas.ReplaceI
/-
C62: SET assigns, removes, lists and asks for variables as documented.
-/
namespace PBat
open Spec

/-! ### Helper lemmas -/

theorem ext_slash {c : Char} (h : c ≠ '/') (u : List Char) (k : List Char) : stricmp ((c :: u).take 4) ('/' :: k) ≠ 0 := by
  intro h0
  unfold stricmp at h0
  rw [lexCmp_eq_zero, codes_inj] at h0
  simp only [fold, List.take_succ_cons, List.map_cons, List.cons.injEq] at h0
  have := h0.1
  rw [show ('/' : Char).toLower = '/' from rfl] at this
  apply h
  unfold Char.toLower at this
  split at this
  · rename_i hc
    exfalso
    have h2 := congrArg Char.toNat this
    have h3 := hc.1
    have h4 := hc.2
    simp only [UInt32.le_iff_toNat_le] at h3 h4
    have e1 : (UInt32.toNat 'A'.val) = 65 := rfl
    have e2 : (UInt32.toNat 'Z'.val) = 90 := rfl
    have e3 : ('/' : Char).toNat = 47 := rfl
    simp only [Char.toNat] at h2
    rw [UInt32.toNat_add] at h2
    simp only [e1, e2] at h3 h4
    have e4 : UInt32.toNat '/'.val = 47 := rfl
    rw [e4] at h2
    have e5 : UInt32.toNat ('a'.val - 'A'.val) = 32 := rfl
    omega
  · exact this

/-- The command when the first parameter is not a switch. -/
theorem cmdSet_simple {L : LibC} {ex : List Char → Res (List Char)} (hk : Keeps ex) {w s : List Char}
    (hw : ∀ c ∈ w, Blank c) (hb : Begins s) (help seta env addr cpy input) :
    cmdSet L ex help seta env addr cpy (w ++ s) input =
      (setS L ex env addr cpy (w ++ s) false >>= fun r => setDone env (w ++ s) input r) := by
  obtain ⟨c, u, rest, hn, hc⟩ := first_param hk hw hb
  unfold cmdSet
  rw [hn]
  simp only [Res.ok_bind]
  rw [if_neg (show ¬ stricmp _ "/?".toList = 0 from ext_slash hc u _), if_neg (show ¬ stricmp _ "/a".toList = 0 from ext_slash hc u _),
    if_neg (show ¬ stricmp _ "/p".toList = 0 from ext_slash hc u _), if_neg (show ¬ stricmp _ "/x".toList = 0 from ext_slash hc u _)]

theorem skip_begins {w s : List Char} (hw : ∀ c ∈ w, Blank c) (hb : Begins s) : skipBlanks (w ++ s) = s := by
  rw [skipBlanks_append hw]
  rcases hb with ⟨c, r, rfl, hc⟩ | ⟨c, r, rfl, -⟩
  · exact skipBlanks_stop hc.1
  · exact skipBlanks_stop (by decide)

theorem begins_ne {s : List Char} (hb : Begins s) : s ≠ [] := by
  rcases hb with ⟨c, r, rfl, -⟩ | ⟨c, r, rfl, -⟩ <;> simp

/-- The simple form on a text that assigns. -/
theorem setS_assign {L : LibC} {ex : List Char → Res (List Char)} {pos : Bool} {env : EnvBuf} {M : Map}
    (hR : EnvRep pos env M) {addr cpy : Int} (ha : SameSide pos addr) (hc : SameSide pos cpy) {line t n v : List Char}
    (hs : skipBlanks line ≠ []) (hex : ex (skipBlanks line) = .ok t) (hA : SetsTo t n v) (inh : Bool) :
    ∃ e', setS L ex env addr cpy line inh = .ok (some e') ∧
      EnvRep pos e' (if v = [] then M.put (fold n) none else M.put (fold (trim n)) (some v)) := by
  obtain ⟨e', he, hR'⟩ := setEnvEx_spec (L := L) (n := ⟨addr, n⟩) (c := v) (cpy := cpy) (inh := inh) hR ha hc
  refine ⟨e', ?_, hR'⟩
  unfold setS
  simp only
  rw [if_neg hs, hex]
  simp only [Res.ok_bind]
  rw [(setsTo_iff t n v).1 hA]
  simp only [he, Res.ofOption, Res.ok_bind]

theorem setS_none {L : LibC} {ex : List Char → Res (List Char)} {env : EnvBuf} {addr cpy : Int} {line t : List Char}
    (hs : skipBlanks line ≠ []) (hex : ex (skipBlanks line) = .ok t) (hA : ¬ ∃ n v, SetsTo t n v) (inh : Bool) :
    setS L ex env addr cpy line inh = .ok none := by
  unfold setS
  simp only
  rw [if_neg hs, hex]
  simp only [Res.ok_bind]
  cases h : splitEq (setQuotes t) with
  | none => rfl
  | some p => exact absurd ⟨p.1, p.2, (setsTo_iff t p.1 p.2).2 h⟩ hA

/-- The variables listed, as name and content. -/
def shown (p : List Char) (vars : List Var) : List (List Char × List Char) :=
  vars.filterMap fun v => v.name.bind fun n => if prefixI p n.txt then some (n.txt, v.content) else none

theorem setList_eq {p : List Char} {vars : List Var} (h : p ≠ [] ∨ ∀ v ∈ vars, v.name ≠ none) :
    setList p vars = .ok ((shown p vars).map listLine) := by
  induction vars with
  | nil => rfl
  | cons v vs ih =>
    have ih := ih (h.imp id fun h v hv => h v (by simp [hv]))
    unfold setList shown
    cases hn : v.name with
    | none =>
      have hp : p ≠ [] := h.resolve_right fun h => h v (by simp) hn
      simp only [if_neg hp, List.filterMap_cons, hn, Option.bind_none]
      exact ih
    | some n =>
      simp only [List.filterMap_cons, hn, Option.bind_some]
      have hp : (p = [] ∨ prefixI p n.txt = true) ↔ prefixI p n.txt = true := by
        constructor
        · rintro (rfl | h)
          · rfl
          · exact h
        · exact .inr
      by_cases hpre : prefixI p n.txt = true
      · rw [if_pos (hp.2 hpre), if_pos hpre, ih]
        rfl
      · rw [if_neg (fun h => hpre (hp.1 h)), if_neg hpre]
        exact ih

theorem lexCmp_le {a b : List Nat} (h : lexCmp a b ≤ 0) : ¬ b < a := by
  induction a generalizing b with
  | nil => simp
  | cons x a ih =>
    cases b with
    | nil => simp [lexCmp] at h
    | cons y b =>
      simp only [lexCmp] at h
      intro hlt
      rw [List.cons_lt_cons_iff] at hlt
      split at h
      · omega
      · split at h
        · omega
        · rcases hlt with h1 | ⟨-, h1⟩
          · omega
          · exact ih h h1

theorem shown_mem {p : List Char} {vars : List Var} {n c : List Char} :
    (n, c) ∈ shown p vars ↔ ∃ v ∈ vars, ∃ m, v.name = some m ∧ m.txt = n ∧ v.content = c ∧ fold p <+: fold n := by
  unfold shown
  rw [List.mem_filterMap]
  constructor
  · rintro ⟨v, hv, h⟩
    obtain ⟨m, hm, h⟩ := Option.bind_eq_some_iff.1 h
    split at h
    · rename_i hp
      simp only [Option.some.injEq, Prod.mk.injEq] at h
      obtain ⟨rfl, rfl⟩ := h
      exact ⟨v, hv, m, hm, rfl, rfl, (prefixI_iff _ _).1 hp⟩
    · cases h
  · rintro ⟨v, hv, m, hm, rfl, rfl, hp⟩
    exact ⟨v, hv, by rw [hm, Option.bind_some, if_pos ((prefixI_iff _ _).2 hp)]⟩

theorem shown_lists {pos : Bool} {env : EnvBuf} {M : Map} (hR : EnvRep pos env M) (p : List Char) :
    Lists M p (shown p env.vars) where
  once := by
    rw [List.nodup_iff_pairwise_ne, List.pairwise_map]
    unfold shown
    rw [List.pairwise_filterMap]
    refine hR.core.uniq.imp ?_
    intro v w hvw x hx y hy
    obtain ⟨m, hm, hx⟩ := Option.bind_eq_some_iff.1 hx
    obtain ⟨m', hm', hy⟩ := Option.bind_eq_some_iff.1 hy
    split at hx
    · split at hy
      · simp only [Option.some.injEq] at hx hy
        subst hx; subst hy
        exact hvw m m' hm hm'
      · cases hy
    · cases hx
  all := by
    intro k c
    rw [hR.core.map]
    constructor
    · rintro ⟨n, hn, rfl⟩
      obtain ⟨v, hv, m, hm, rfl, rfl, hp⟩ := shown_mem.1 hn
      exact ⟨⟨v, hv, m, hm, rfl, rfl⟩, hp⟩
    · rintro ⟨⟨v, hv, m, hm, rfl, rfl⟩, hp⟩
      exact ⟨m.txt, shown_mem.2 ⟨v, hv, m, hm, rfl, rfl, hp⟩, rfl⟩
  sorted := by
    unfold shown
    rw [List.pairwise_filterMap]
    refine hR.sorted.imp ?_
    intro v w hvw x hx y hy
    obtain ⟨m, hm, hx⟩ := Option.bind_eq_some_iff.1 hx
    obtain ⟨m', hm', hy⟩ := Option.bind_eq_some_iff.1 hy
    split at hx
    · split at hy
      · simp only [Option.some.injEq] at hx hy
        subst hx; subst hy
        unfold envCompName at hvw
        rw [hm, hm'] at hvw
        have := lexCmp_le hvw
        rwa [codes_eq, codes_eq] at this
      · cases hy
    · cases hx

/-- A switch is recognised in either case. -/
theorem cmdSet_switch {L : LibC} {ex : List Char → Res (List Char)} (hk : Keeps ex) {w b s : List Char} {x y : Char}
    (hw : ∀ c ∈ w, Blank c) (hx : x.toLower = y) (hx' : ¬ Blank x ∧ x ∉ ['"', '^', '%', '!']) (hb : ∀ c ∈ b, Blank c) (hbs : b ≠ [] ∨ s = [])
    (help seta env addr cpy input) :
    cmdSet L ex help seta env addr cpy (w ++ ('/' :: x :: (b ++ s))) input =
      if y = '?' then .ok ⟨env, help, input, 0⟩ else if y = 'a' then seta (b ++ s)
      else if y = 'p' then setP L ex env addr cpy (b ++ s) input
      else if y = 'x' then
        setS L ex env addr cpy (b ++ s) true >>= fun r => setDone env (w ++ ('/' :: x :: (b ++ s))) input r
      else setS L ex env addr cpy (w ++ ('/' :: x :: (b ++ s))) false >>= fun r => setDone env (w ++ ('/' :: x :: (b ++ s))) input r := by
  have hst : Stops (b ++ s) := by
    cases b with
    | nil =>
      rcases hbs with h | rfl
      · exact absurd rfl h
      · exact .inl rfl
    | cons c b => exact .inr ⟨c, b ++ s, rfl, hb c (by simp)⟩
  have hq : ∀ c ∈ ['/', x], c ∉ ['"', '^', '%', '!'] := by
    intro c hc
    simp only [List.mem_cons, List.not_mem_nil, or_false] at hc
    rcases hc with rfl | rfl
    · decide
    · exact hx'.2
  have hwr : Written (fun c => c == '"' || c == '^' || c == '%' || c == '!') ['/', x] ['/', x] := by
    refine .word (by simp) ?_ ?_ ?_
    · intro c hc
      simp only [List.mem_cons, List.not_mem_nil, or_false] at hc
      rcases hc with rfl | rfl
      · decide
      · exact hx'.1
    · intro h; exact hq _ h (by simp)
    · intro c hc
      have := hq c hc
      simp only [List.mem_cons, List.not_mem_nil, or_false, not_or] at this
      simp [this]
  have hn := nextParam_written rfl rfl ex hw hwr hst
  rw [escape_none (by
    intro c hc
    have := hq c hc
    simp only [List.mem_cons, List.not_mem_nil, or_false, not_or] at this
    simp [this]), hk.plain _ (by
    intro c hc h
    exact hq c hc (by simp only [List.mem_cons] at h ⊢; exact .inr h))] at hn
  unfold cmdSet
  rw [show w ++ ('/' :: x :: (b ++ s)) = w ++ (['/', x] ++ (b ++ s)) from rfl, hn]
  simp only [Res.ok_bind, Res.pure_eq]
  have key : ∀ z : Char, z.toLower = z → (stricmp (List.take 4 ['/', x]) ['/', z] = 0 ↔ y = z) := by
    intro z hz
    unfold stricmp
    rw [lexCmp_eq_zero, codes_inj]
    simp [fold, hx, hz]
  rw [show "/?".toList = ['/', '?'] from rfl, show "/a".toList = ['/', 'a'] from rfl, show "/p".toList = ['/', 'p'] from rfl,
    show "/x".toList = ['/', 'x'] from rfl]
  simp only [key '?' rfl, key 'a' rfl, key 'p' rfl, key 'x' rfl]

theorem answer_iff {input : List (List Char)} {a : List Char} {rest : List (List Char)} (h : Answer input a rest) :
    setAnswer input = a ∧ input.drop 1 = rest := by
  have hn : ∀ {a : List Char}, '\n' ∉ a → ∀ c ∈ a, (c != '\n') = true := by
    intro a h c hc
    simp only [bne_iff_ne, ne_eq]
    rintro rfl
    exact h hc
  cases h with
  | line h =>
    refine ⟨?_, rfl⟩
    simp only [setAnswer]
    rw [List.takeWhile_append_of_pos (hn h)]
    simp
  | last h => exact ⟨takeWhile_self (hn h), rfl⟩
  | ended => exact ⟨rfl, rfl⟩

theorem put_value {M : Map} {n v : List Char} (ht : v = [] → trim n = n) :
    (if v = [] then M.put (fold n) none else M.put (fold (trim n)) (some v)) = M.put (key n) (value v) := by
  unfold value key
  split
  · rw [ht (by assumption)]
  · rfl

/-! ### Assignments -/

/-- `SET name=content`: for every environment, every text that begins with an ordinary character (possibly after a quote) and, once expanded,
assigns `v` to `n`, the variable `n` (without its trailing blanks) gets exactly the content `v`, or is removed if the content is empty; nothing
else changes and nothing is written.  Missing: the removal of a name followed by blanks (`C62_remove_blank`). -/
theorem C62_assign_partial (L : LibC) (ex : List Char → Res (List Char)) (hk : Keeps ex) (help : List Char)
    (seta : List Char → Res SetOut) (pos : Bool) (env : EnvBuf) (M : Map) (hR : EnvRep pos env M) (addr cpy : Int)
    (ha : SameSide pos addr) (hc : SameSide pos cpy) (w s t n v : List Char) (input : List (List Char))
    (hw : ∀ c ∈ w, Blank c) (hb : Begins s) (hex : ex s = .ok t) (hA : SetsTo t n v) (ht : v = [] → trim n = n) :
    ∃ e', cmdSet L ex help seta env addr cpy (w ++ s) input = .ok ⟨e', [], input, 0⟩ ∧
      EnvRep pos e' (M.put (key n) (value v)) := by
  have hs := skip_begins hw hb
  obtain ⟨e', he, hR'⟩ := setS_assign (L := L) (ex := ex) (line := w ++ s) hR ha hc (by rw [hs]; exact begins_ne hb)
    (by rw [hs]; exact hex) hA false
  rw [put_value ht] at hR'
  exact ⟨e', by rw [cmdSet_simple hk hw hb, he]; rfl, hR'⟩

/-- Any content can be stored: written with its special characters escaped, it is read back exactly. -/
theorem C62_roundtrip (L : LibC) (delayed : Bool) (loops : LocalBlock) (mods : List Char → Char → List Char → List Char)
    (getv : List Char → Res (Option (List Char))) (hv : ∀ n, ∃ v, getv n = .ok v) (q : Char → Bool) (hqc : q '^' = true)
    (hqp : q '%' = true) (hqe : q '!' = true) (help : List Char)
    (seta : List Char → Res SetOut) (pos : Bool) (env : EnvBuf) (M : Map) (hR : EnvRep pos env M) (addr cpy a : Int)
    (ha : SameSide pos addr) (hc : SameSide pos cpy) (ha' : SameSide pos a) (w n v j : List Char) (input : List (List Char))
    (hw : ∀ c ∈ w, Blank c) (hn : ∃ c r, n = c :: r ∧ Ordinary c ∧ q c = false) (heq : '=' ∉ n) (htr : trim n = n) (hv0 : v ≠ []) :
    (∃ e', cmdSet L (delayedExpand delayed loops mods getv) help seta env addr cpy (w ++ escape q (n ++ '=' :: v)) input =
      .ok ⟨e', [], input, 0⟩ ∧ getEnv L e' ⟨a, n⟩ = some v ∧
        ∀ m, fold m ≠ fold n → getEnv L e' ⟨a, m⟩ = M (fold m)) ∧
    ('"' ∉ j → q '"' = false → ∃ e', cmdSet L (delayedExpand delayed loops mods getv) help seta env addr cpy
        (w ++ escape q ('"' :: (n ++ '=' :: v ++ '"' :: j))) input = .ok ⟨e', [], input, 0⟩ ∧ getEnv L e' ⟨a, n⟩ = some v ∧
        ∀ m, fold m ≠ fold n → getEnv L e' ⟨a, m⟩ = M (fold m)) := by
  have hk := delayedExpand_keeps delayed loops mods getv hv
  obtain ⟨c, r, rfl, hco, hqc'⟩ := hn
  have hread : ∀ e', EnvRep pos e' (M.put (key (c :: r)) (value v)) → getEnv L e' ⟨a, c :: r⟩ = some v ∧
      ∀ m, fold m ≠ fold (c :: r) → getEnv L e' ⟨a, m⟩ = M (fold m) := by
    intro e' h
    constructor
    · rw [getEnv_spec h ha']
      simp only [Map.put, key, htr, if_true, value, if_neg hv0]
    · intro m hm
      rw [getEnv_spec h ha']
      simp only [Map.put, key, htr, if_neg hm]
  constructor
  · obtain ⟨e', h1, h2⟩ := C62_assign_partial L _ hk help seta pos env M hR addr cpy ha hc w (escape q (c :: r ++ '=' :: v)) _ (c :: r) v
      input hw (.inl ⟨c, escape q (r ++ '=' :: v), by simp [escape, hqc'], hco⟩)
      (delayedExpand_escape delayed loops mods getv hqc hqp hqe _)
      (.plain heq (by
        intro h
        simp only [List.cons_append, List.head?_cons, Option.some.injEq] at h
        subst h
        exact absurd (by simp) hco.2)) (fun h => absurd h hv0)
    exact ⟨e', h1, hread e' h2⟩
  · intro hj hqq
    obtain ⟨e', h1, h2⟩ := C62_assign_partial L _ hk help seta pos env M hR addr cpy ha hc w
      (escape q ('"' :: (c :: r ++ '=' :: v ++ '"' :: j))) _ (c :: r) v
      input hw (.inr ⟨c, escape q (r ++ '=' :: v ++ '"' :: j), by simp [escape, hqc', hqq], hco.2⟩)
      (delayedExpand_escape delayed loops mods getv hqc hqp hqe _)
      (.quoted heq hj) (fun h => absurd h hv0)
    exact ⟨e', h1, hread e' h2⟩

/-- `SET /x name=content` assigns in the same way. -/
theorem C62_x_partial (L : LibC) (ex : List Char → Res (List Char)) (hk : Keeps ex) (help : List Char)
    (seta : List Char → Res SetOut) (pos : Bool) (env : EnvBuf) (M : Map) (hR : EnvRep pos env M) (addr cpy : Int)
    (ha : SameSide pos addr) (hc : SameSide pos cpy) (w b s t n v : List Char) (x : Char) (input : List (List Char))
    (hw : ∀ c ∈ w, Blank c) (hx : x = 'x' ∨ x = 'X') (hbl : ∀ c ∈ b, Blank c) (hb0 : b ≠ [])
    (hs0 : ∃ c r, s = c :: r ∧ ¬ Blank c) (hex : ex s = .ok t) (hA : SetsTo t n v) (ht : v = [] → trim n = n) :
    ∃ e', cmdSet L ex help seta env addr cpy (w ++ ('/' :: x :: (b ++ s))) input = .ok ⟨e', [], input, 0⟩ ∧
      EnvRep pos e' (M.put (key n) (value v)) := by
  obtain ⟨c, r, rfl, hcb⟩ := hs0
  have hs : skipBlanks (b ++ c :: r) = c :: r := by rw [skipBlanks_append hbl, skipBlanks_stop hcb]
  obtain ⟨e', he, hR'⟩ := setS_assign (L := L) (ex := ex) (line := b ++ c :: r) hR ha hc (by rw [hs]; simp) (by rw [hs]; exact hex) hA true
  rw [put_value ht] at hR'
  refine ⟨e', ?_, hR'⟩
  rw [cmdSet_switch hk hw (y := 'x') (by rcases hx with rfl | rfl <;> rfl) (by rcases hx with rfl | rfl <;> decide) hbl (.inl hb0),
    if_neg (by decide), if_neg (by decide), if_neg (by decide), if_pos rfl, he]
  rfl

/-- Violation: the trailing blanks of the name are removed when a content is given but not when the variable is to be removed, so
`SET name =` leaves a defined variable as it was. -/
theorem C62_remove_blank (L : LibC) (ex : List Char → Res (List Char)) (hk : Keeps ex) (help : List Char)
    (seta : List Char → Res SetOut) (pos : Bool) (env : EnvBuf) (M : Map) (hR : EnvRep pos env M) (addr cpy : Int)
    (ha : SameSide pos addr) (hc : SameSide pos cpy) (w s n : List Char) (input : List (List Char))
    (hw : ∀ c ∈ w, Blank c) (hb : Begins s) (hex : ex s = .ok (n ++ ['='])) (hq : n.head? ≠ some '"') (heq : '=' ∉ n)
    (ht : trim n ≠ n) :
    ∃ e', cmdSet L ex help seta env addr cpy (w ++ s) input = .ok ⟨e', [], input, 0⟩ ∧
      EnvRep pos e' (M.put (fold n) none) ∧ (M.put (fold n) none) (key n) = M (key n) := by
  have hs := skip_begins hw hb
  have hA : SetsTo (n ++ ['=']) n [] := .plain heq (by
    cases n with
    | nil => intro h; simp at h
    | cons c n => intro h; exact absurd h hq)
  obtain ⟨e', he, hR'⟩ := setS_assign (L := L) (ex := ex) (line := w ++ s) hR ha hc (by rw [hs]; exact begins_ne hb)
    (by rw [hs]; exact hex) hA false
  rw [if_pos rfl] at hR'
  refine ⟨e', by rw [cmdSet_simple hk hw hb, he]; rfl, hR', ?_⟩
  unfold Map.put
  rw [if_neg]
  intro h
  apply ht
  have hl : (trim n).length = n.length := by
    have := congrArg List.length h
    simpa [key, fold] using this
  unfold trim at hl ⊢
  simp only at hl ⊢
  split
  · rfl
  · rename_i h0
    rw [if_neg h0] at hl
    have hsuf := List.dropWhile_suffix (l := n.reverse) blank
    have : n.reverse.dropWhile blank = n.reverse := hsuf.eq_of_length (by simpa using hl)
    rw [this, List.reverse_reverse]

/-! ### Listing -/

/-- `SET prefix` writes exactly the variables the name of which begins with the prefix, up to case, each once, in order, as `name=content`; if
there is none the status is 4.  The prefix is the rest of the line as it is written, also when it contains something to expand. -/
theorem C62_list_partial (L : LibC) (ex : List Char → Res (List Char)) (hk : Keeps ex) (help : List Char)
    (seta : List Char → Res SetOut) (pos : Bool) (env : EnvBuf) (M : Map) (hR : EnvRep pos env M) (addr cpy : Int)
    (w s t : List Char) (input : List (List Char)) (hw : ∀ c ∈ w, Blank c) (hb : Begins s) (hex : ex s = .ok t)
    (hA : ¬ ∃ n v, SetsTo t n v) :
    ∃ vars, Lists M s vars ∧ cmdSet L ex help seta env addr cpy (w ++ s) input =
      .ok ⟨env, vars.flatMap listLine, input, if vars = [] then 4 else 0⟩ := by
  have hs := skip_begins hw hb
  refine ⟨shown s env.vars, shown_lists hR s, ?_⟩
  rw [cmdSet_simple hk hw hb, setS_none (by rw [hs]; exact begins_ne hb) (by rw [hs]; exact hex) hA, Res.ok_bind]
  simp only [setDone, setShow, hs]
  rw [setList_eq (.inl (begins_ne hb)), Res.ok_bind]
  simp [List.flatMap]

/-- Violation: the prefix is not expanded.  With a loop variable `i` of value `b` and `ab` defined, `SET a%i` finds nothing. -/
theorem C62_list_unexpanded :
    cmdSet stdLib (delayedExpand false (fun c => if c = 'i' then some ['b'] else none) (fun _ _ v => v) fun _ => .ok none) []
      (fun _ => .ub) ⟨128, [⟨some ⟨1, ['a', 'b']⟩, ['1'], false, []⟩]⟩ 1 2 [' ', 'a', '%', 'i'] [] =
    .ok ⟨⟨128, [⟨some ⟨1, ['a', 'b']⟩, ['1'], false, []⟩]⟩, [], [], 4⟩ := by decide +kernel

/-- Violation: `SET /x prefix` looks for names that begin with `/x prefix`. -/
theorem C62_list_x (L : LibC) (ex : List Char → Res (List Char)) (hk : Keeps ex) (help : List Char)
    (seta : List Char → Res SetOut) (pos : Bool) (env : EnvBuf) (M : Map) (hR : EnvRep pos env M) (addr cpy : Int)
    (w b s t : List Char) (x : Char) (input : List (List Char)) (hw : ∀ c ∈ w, Blank c) (hx : x = 'x' ∨ x = 'X')
    (hbl : ∀ c ∈ b, Blank c) (hb0 : b ≠ []) (hs0 : ∃ c r, s = c :: r ∧ ¬ Blank c) (hex : ex s = .ok t)
    (hA : ¬ ∃ n v, SetsTo t n v) (hM : ∀ k c, M k = some c → ¬ ['/', 'x'] <+: k) :
    cmdSet L ex help seta env addr cpy (w ++ ('/' :: x :: (b ++ s))) input = .ok ⟨env, [], input, 4⟩ := by
  obtain ⟨c, r, rfl, hcb⟩ := hs0
  have hs : skipBlanks (b ++ c :: r) = c :: r := by rw [skipBlanks_append hbl, skipBlanks_stop hcb]
  have hx2 : x.toLower = 'x' := by rcases hx with rfl | rfl <;> rfl
  rw [cmdSet_switch hk hw (y := 'x') hx2 (by rcases hx with rfl | rfl <;> decide) hbl (.inl hb0),
    if_neg (by decide), if_neg (by decide), if_neg (by decide), if_pos rfl,
    setS_none (by rw [hs]; simp) (by rw [hs]; exact hex) hA, Res.ok_bind]
  have hsl : skipBlanks (w ++ '/' :: x :: (b ++ c :: r)) = '/' :: x :: (b ++ c :: r) := by
    rw [skipBlanks_append hw, skipBlanks_stop (by decide)]
  simp only [setDone, setShow, hsl]
  rw [setList_eq (.inl (by simp)), Res.ok_bind]
  have h0 : shown ('/' :: x :: (b ++ c :: r)) env.vars = [] := by
    rw [List.eq_nil_iff_forall_not_mem]
    rintro ⟨n, cont⟩ hmem
    have hl := ((shown_lists hR _).all (fold n) cont).1 ⟨n, hmem, rfl⟩
    refine hM _ _ hl.1 (List.IsPrefix.trans ?_ hl.2)
    simp only [fold, List.map_cons, hx2]
    exact ⟨_, rfl⟩
  rw [h0]
  rfl

/-- `SET` alone writes every variable once, as long as no variable has been removed. -/
theorem C62_list_all_partial (L : LibC) (ex : List Char → Res (List Char)) (help : List Char)
    (seta : List Char → Res SetOut) (pos : Bool) (env : EnvBuf) (M : Map) (hR : EnvRep pos env M) (addr cpy : Int)
    (w : List Char) (input : List (List Char)) (hw : ∀ c ∈ w, Blank c) (hd : ∀ v ∈ env.vars, v.name ≠ none) :
    ∃ vars, Lists M [] vars ∧ cmdSet L ex help seta env addr cpy w input =
      .ok ⟨env, vars.flatMap listLine, input, if vars = [] then 4 else 0⟩ := by
  have hs : skipBlanks w = [] := by
    have := skipBlanks_append (s := []) hw
    rw [List.append_nil] at this
    rw [this]; rfl
  refine ⟨shown [] env.vars, shown_lists hR [], ?_⟩
  unfold cmdSet
  rw [nextParam_nil _ _ _ hs, Res.ok_bind]
  simp only [setShow, hs]
  rw [setList_eq (.inr hd), Res.ok_bind]
  simp [List.flatMap]

theorem setList_dead {vars : List Var} (h : ∃ v ∈ vars, v.name = none) : setList [] vars = .ub := by
  induction vars with
  | nil => simp at h
  | cons v vs ih =>
    unfold setList
    cases hn : v.name with
    | none => simp
    | some n =>
      have : setList [] vs = .ub := by
        apply ih
        obtain ⟨u, hu, hd⟩ := h
        rcases List.mem_cons.1 hu with rfl | hu
        · rw [hn] at hd; cases hd
        · exact ⟨u, hu, hd⟩
      simp [this]

theorem unSetEnv_dead {L : LibC} {pos : Bool} {e : EnvBuf} {M : Map} (h : EnvRep pos e M) {n : CPtr}
    (hn : SameSide pos n.addr) (hM : M (fold n.txt) ≠ none) : ∃ v ∈ (unSetEnv L e n).vars, v.name = none := by
  rcases search_name (L := L) h hn with ⟨i, v, m, h1, h2, h3, h4, h5⟩ | ⟨-, h2, -⟩
  · unfold unSetEnv
    rw [h1]
    simp only [h2, h.core.prev v (List.mem_of_getElem? h2), if_true]
    have hcons : Consistent envCompName (e.vars.set i ⟨none, [], v.inherit, []⟩) := by
      refine consistent_of_signLex (enc := enc pos) fun a ha b hb => compName_sign ?_ ?_
      · rcases List.mem_or_eq_of_mem_set ha with ha | rfl
        · exact h.core.side a ha
        · intro x hx; simp at hx
      · rcases List.mem_or_eq_of_mem_set hb with hb | rfl
        · exact h.core.side b hb
        · intro x hx; simp at hx
    refine ⟨⟨none, [], v.inherit, []⟩, ?_, rfl⟩
    rw [(L.qsort_perm _ _ hcons).mem_iff]
    exact List.mem_set (List.getElem?_eq_some_iff.1 h2).1 _
  · exact absurd h2 hM

/-- Violation: once a variable has been removed, `SET` alone writes a null pointer as a text. -/
theorem C62_list_removed (L : LibC) (ex : List Char → Res (List Char)) (hk : Keeps ex) (help : List Char)
    (seta : List Char → Res SetOut) (pos : Bool) (env : EnvBuf) (M : Map) (hR : EnvRep pos env M) (addr cpy : Int)
    (ha : SameSide pos addr) (w s n : List Char) (input : List (List Char))
    (hw : ∀ c ∈ w, Blank c) (hb : Begins s) (hex : ex s = .ok (n ++ ['='])) (hq : n.head? ≠ some '"') (heq : '=' ∉ n)
    (hM : M (fold n) ≠ none) :
    ∃ e', cmdSet L ex help seta env addr cpy (w ++ s) input = .ok ⟨e', [], input, 0⟩ ∧
      ∀ w', (∀ c ∈ w', Blank c) → cmdSet L ex help seta e' addr cpy w' input = .ub := by
  have hs := skip_begins hw hb
  have hA : SetsTo (n ++ ['=']) n [] := .plain heq (by
    cases n with
    | nil => intro h; simp at h
    | cons c n => intro h; exact absurd h hq)
  refine ⟨unSetEnv L env ⟨addr, n⟩, ?_, ?_⟩
  · rw [cmdSet_simple hk hw hb]
    unfold setS
    simp only [hs]
    rw [if_neg (begins_ne hb), hex]
    simp only [Res.ok_bind]
    rw [(setsTo_iff _ n []).1 hA]
    simp only [setEnvEx, if_true, Res.ofOption, Res.ok_bind]
    rfl
  · intro w' hw'
    have hs' : skipBlanks w' = [] := by
      have := skipBlanks_append (s := []) hw'
      rw [List.append_nil] at this
      rw [this]; rfl
    unfold cmdSet
    rw [nextParam_nil _ _ _ hs', Res.ok_bind]
    simp only [setShow, hs']
    rw [setList_dead (unSetEnv_dead hR (n := ⟨addr, n⟩) ha hM)]
    rfl

/-! ### Asking -/

/-- `SET /p name=question` writes the question, takes one line of the input and assigns it to the variable.  An empty answer, or the end of
the input, removes the variable and makes the status 1. -/
theorem C62_prompt (L : LibC) (ex : List Char → Res (List Char)) (hk : Keeps ex) (help : List Char)
    (seta : List Char → Res SetOut) (pos : Bool) (env : EnvBuf) (M : Map) (hR : EnvRep pos env M) (addr cpy : Int)
    (ha : SameSide pos addr) (hc : SameSide pos cpy) (w b s n q a : List Char) (x : Char) (input rest : List (List Char))
    (hw : ∀ c ∈ w, Blank c) (hx : x = 'p' ∨ x = 'P') (hbl : ∀ c ∈ b, Blank c) (hb0 : b ≠ [])
    (hs0 : ∃ c r, s = c :: r ∧ ¬ Blank c ∧ c ≠ '"') (hex : ex s = .ok (n ++ '=' :: q)) (heq : '=' ∉ n)
    (hans : Answer input a rest) (ht : a = [] → trim n = n) :
    ∃ e', cmdSet L ex help seta env addr cpy (w ++ ('/' :: x :: (b ++ s))) input =
      .ok ⟨e', q, rest, if a = [] then 1 else 0⟩ ∧ EnvRep pos e' (M.put (key n) (value a)) := by
  obtain ⟨c, r, rfl, hcb, hcq⟩ := hs0
  have hs : skipBlanks (b ++ c :: r) = c :: r := by rw [skipBlanks_append hbl, skipBlanks_stop hcb]
  obtain ⟨h1, h2⟩ := answer_iff hans
  obtain ⟨e', he, hR'⟩ := setEnvEx_spec (L := L) (n := ⟨addr, n⟩) (c := a) (cpy := cpy) (inh := false) hR ha hc
  rw [put_value ht] at hR'
  refine ⟨e', ?_, hR'⟩
  rw [cmdSet_switch hk hw (y := 'p') (by rcases hx with rfl | rfl <;> rfl) (by rcases hx with rfl | rfl <;> decide) hbl (.inl hb0),
    if_neg (by decide), if_neg (by decide), if_pos rfl]
  unfold setP setPText
  simp only [hs]
  rw [if_neg (by simpa using hcq), hex, Res.ok_bind, splitEq_app heq]
  simp only [h1, h2, he, Res.ofOption, Res.ok_bind]

/-- The same with the name and the question in quotes: what follows the closing quote does not count. -/
theorem C62_prompt_quoted (L : LibC) (ex : List Char → Res (List Char)) (hk : Keeps ex) (help : List Char)
    (seta : List Char → Res SetOut) (pos : Bool) (env : EnvBuf) (M : Map) (hR : EnvRep pos env M) (addr cpy : Int)
    (ha : SameSide pos addr) (hc : SameSide pos cpy) (w b tail n q a : List Char) (esc : Char → Bool) (x : Char)
    (input rest : List (List Char)) (hw : ∀ c ∈ w, Blank c) (hx : x = 'p' ∨ x = 'P') (hbl : ∀ c ∈ b, Blank c) (hb0 : b ≠ [])
    (hq : esc '"' = true) (hqc : esc '^' = true)
    (htail : tail = [] ∨ ∃ c r, tail = c :: r ∧ Blank c)
    (hex : ex (escape esc (n ++ '=' :: q)) = .ok (n ++ '=' :: q)) (heq : '=' ∉ n)
    (hans : Answer input a rest) (ht : a = [] → trim n = n) :
    ∃ e', cmdSet L ex help seta env addr cpy
        (w ++ ('/' :: x :: (b ++ ('"' :: (escape esc (n ++ '=' :: q) ++ '"' :: tail))))) input =
      .ok ⟨e', q, rest, if a = [] then 1 else 0⟩ ∧ EnvRep pos e' (M.put (key n) (value a)) := by
  have hs : skipBlanks (b ++ '"' :: (escape esc (n ++ '=' :: q) ++ '"' :: tail)) = '"' :: (escape esc (n ++ '=' :: q) ++ '"' :: tail) := by
    rw [skipBlanks_append hbl, skipBlanks_stop (by decide)]
  obtain ⟨h1, h2⟩ := answer_iff hans
  obtain ⟨e', he, hR'⟩ := setEnvEx_spec (L := L) (n := ⟨addr, n⟩) (c := a) (cpy := cpy) (inh := false) hR ha hc
  rw [put_value ht] at hR'
  refine ⟨e', ?_, hR'⟩
  rw [cmdSet_switch hk hw (y := 'p') (by rcases hx with rfl | rfl <;> rfl) (by rcases hx with rfl | rfl <;> decide) hbl (.inl hb0),
    if_neg (by decide), if_neg (by decide), if_pos rfl]
  have hn := nextParam_written hq hqc ex (w := []) (by simp) (.quoted (a := n ++ '=' :: q)) htail
  rw [hex] at hn
  simp only [List.nil_append, List.cons_append, List.append_assoc, Res.ok_bind, Res.pure_eq] at hn
  unfold setP setPText
  simp only [hs]
  rw [if_pos (by simp), hn]
  simp only [Res.ok_bind, Option.map_some, Option.getD_some]
  rw [splitEq_app heq]
  simp only [h1, h2, he, Res.ofOption, Res.ok_bind]

/-- Without an equal sign SET /p asks nothing and changes nothing. -/
theorem C62_prompt_bad (L : LibC) (ex : List Char → Res (List Char)) (hk : Keeps ex) (help : List Char)
    (seta : List Char → Res SetOut) (env : EnvBuf) (addr cpy : Int)
    (w b s t : List Char) (x : Char) (input : List (List Char))
    (hw : ∀ c ∈ w, Blank c) (hx : x = 'p' ∨ x = 'P') (hbl : ∀ c ∈ b, Blank c) (hb0 : b ≠ [])
    (hs0 : ∃ c r, s = c :: r ∧ ¬ Blank c ∧ c ≠ '"') (hex : ex s = .ok t) (heq : '=' ∉ t) :
    cmdSet L ex help seta env addr cpy (w ++ ('/' :: x :: (b ++ s))) input = .ok ⟨env, [], input, 4⟩ := by
  obtain ⟨c, r, rfl, hcb, hcq⟩ := hs0
  have hs : skipBlanks (b ++ c :: r) = c :: r := by rw [skipBlanks_append hbl, skipBlanks_stop hcb]
  rw [cmdSet_switch hk hw (y := 'p') (by rcases hx with rfl | rfl <;> rfl) (by rcases hx with rfl | rfl <;> decide) hbl (.inl hb0),
    if_neg (by decide), if_neg (by decide), if_pos rfl]
  unfold setP setPText
  simp only [hs]
  rw [if_neg (by simpa using hcq), hex, Res.ok_bind]
  unfold splitEq
  rw [if_neg heq]

/-! ### Examples -/

/-- `SET " a b = c "d" e"` followed by a comment. -/
example : SetsTo "\"a b = c \"d\" e\" rem".toList "a b ".toList " c \"d\" e".toList ∧ Begins "\"a b = c \"d\" e\" rem".toList ∧
    key "a b ".toList = "a b".toList := by
  refine ⟨?_, .inr ⟨'a', _, rfl, by decide⟩, by decide⟩
  have h : SetsTo ('"' :: ("a b ".toList ++ '=' :: " c \"d\" e".toList ++ '"' :: " rem".toList)) "a b ".toList " c \"d\" e".toList :=
    .quoted (by decide) (by decide)
  exact h

/-- An environment that represents a map. -/
example : EnvRep true ⟨128, []⟩ (fun _ => none) :=
  ⟨⟨by simp, by simp, by simp, by simp⟩, by simp, by simp⟩

/-- An assignment, a listing, a question and a removal. -/
example :
    (do
      let r ← cmdSet stdLib (fun t => .ok t) [] (fun _ => .ub) ⟨128, []⟩ 1 2 " Ab =c d".toList []
      let r ← cmdSet stdLib (fun t => .ok t) [] (fun _ => .ub) r.env 1 3 " /P abx=Name? ".toList ["you\n".toList]
      let r' ← cmdSet stdLib (fun t => .ok t) [] (fun _ => .ub) r.env 1 3 " aB".toList []
      pure (r.out, r'.out)) = Res.ok ("Name? ".toList, "Ab=c d\nabx=you\n".toList) := by decide +kernel

end PBat
