import Verif.Spec.Call
import Verif.Lemmas.Shift
import Verif.Lemmas.Setlocal
import Verif.Lemmas.Params
import Verif.Lemmas.Locals
import Verif.Props.C19
import Verif.Props.C36
/-
Lemmas about CALL.
-/
namespace PBat
open Spec

theorem call_head {q : Char → Bool} {x a : List Char} (h : Written q x a) : ∃ c r, x = c :: r ∧ ¬ Blank c := by
  cases h with
  | quoted => exact ⟨'"', _, rfl, by decide⟩
  | word h1 h2 =>
    cases x with
    | nil => exact absurd rfl h1
    | cons c r => exact ⟨c, r, rfl, h2 c (by simp)⟩

/-- Reading one of the parameters written at the beginning of a line. -/
theorem prefix_next {q : Char → Bool} (hq : q '"' = true) (hc : q '^' = true) (hp : q '%' = true) (he : q '!' = true)
    (c : Ctx) {line a tail : List Char} {as : List (List Char)} (h : ParamPrefix q line (a :: as) tail) :
    ∃ t, nextParam stdDelims c.ex line = .ok (some (a, t)) ∧ t.length < line.length ∧
      (as = [] ∧ t = tail ∨ ParamPrefix q t as tail) := by
  cases h with
  | @last w x a rest hw hx hr =>
    have hr' := readsAs_written hq hc hp he hx
    refine ⟨_, by rw [List.append_assoc]; exact hr' c w _ hw hr, ?_, .inl ⟨rfl, rfl⟩⟩
    have := List.length_pos_iff.2 (readsAs_ne hr')
    simp; omega
  | @cons w x a b r as rest hw hx hb ht =>
    have hr' := readsAs_written hq hc hp he hx
    refine ⟨b :: r, by rw [List.append_assoc]; exact hr' c w _ hw (.inr ⟨b, r, rfl, hb⟩), ?_, .inr ht⟩
    have := List.length_pos_iff.2 (readsAs_ne hr')
    simp; omega

theorem prefix_skip {q : Char → Bool} {line tail : List Char} {as : List (List Char)} (h : ParamPrefix q line as tail) :
    ParamPrefix q (skipBlanks line) as tail := by
  cases h with
  | @last w x a rest hw hx hr =>
    obtain ⟨c, r, rfl, hb⟩ := call_head hx
    rw [List.append_assoc, skipBlanks_append hw, List.cons_append, skipBlanks_stop hb, ← List.cons_append]
    have := ParamPrefix.last (w := []) (by simp) hx hr
    simpa using this
  | @cons w x a b r as rest hw hx hb ht =>
    obtain ⟨c, y, rfl, hb'⟩ := call_head hx
    rw [List.append_assoc, skipBlanks_append hw, List.cons_append, skipBlanks_stop hb', ← List.cons_append]
    have := ParamPrefix.cons (w := []) (by simp) hx hb ht
    simpa using this

/-- Where the loop stops when enough parameters have been taken. -/
theorem callScan_stop (c : Ctx) (cmdly : Bool) (o : CallOpts) {t : List Char} {as : List (List Char)} (h : Kept t as)
    (hn : o.nb ≠ 0) (hs : o.ext = false ∨ o.nb = 2) (hh : ∀ a, as.head? = some a → fold a ≠ "/?".toList) :
    callScan c.ex cmdly o t = .ok (.done o t) := by
  rw [callScan.eq_1]
  rcases kept_next c h with ⟨-, e⟩ | ⟨a, as', t', rfl, e, -, -⟩
  · rw [e]
  · rw [e]
    simp only
    rw [if_neg (fun h => hn h.2), if_neg, if_pos]
    · rcases hs with hs | hs
      · exact .inl ⟨hn, hs⟩
      · exact .inr hs
    · intro h0
      exact hh a rfl (stricmp_zero.1 h0)

/-- Taking one parameter. -/
theorem callScan_take (c : Ctx) (cmdly : Bool) (o : CallOpts) {line t x : List Char}
    (h : nextParam stdDelims c.ex line = .ok (some (x, t))) (hl : t.length < line.length)
    (h1 : o.nb = 0 → fold x ≠ "/e".toList) (h2 : fold x ≠ "/?".toList) (h3 : o.nb = 0 ∨ o.ext = true ∧ o.nb = 1) :
    callScan c.ex cmdly o line = callScan c.ex cmdly (callTake o x) t := by
  rw [callScan.eq_1, h]
  simp only
  rw [if_neg, if_neg, if_neg, if_pos hl]
  · rintro (⟨ha, hb⟩ | ha)
    · rcases h3 with h3 | h3
      · exact ha h3
      · rw [h3.1] at hb; exact absurd hb (by simp)
    · omega
  · intro h0; exact h2 (stricmp_zero.1 h0)
  · rintro ⟨h0, hn⟩; exact h1 hn (stricmp_zero.1 h0)

/-- The switch. -/
theorem callScan_ext (c : Ctx) (o : CallOpts) {line t x : List Char} (hn : o.nb = 0)
    (h : nextParam stdDelims c.ex line = .ok (some (x, t))) (hl : t.length < line.length) (hx : fold x = "/e".toList) :
    callScan c.ex false o line = callScan c.ex false { o with ext := true } t := by
  rw [callScan.eq_1, h]
  simp only
  rw [if_pos ⟨stricmp_zero.2 (by rw [hx]; rfl), hn⟩, if_neg (by simp), if_pos hl]

/-- One parameter, then arguments. -/
theorem callScan_one {q : Char → Bool} (hq : q '"' = true) (hc : q '^' = true) (hp : q '%' = true) (he : q '!' = true)
    (c : Ctx) (cmdly : Bool) {line x tail : List Char} {as : List (List Char)} (h : ParamPrefix q line [x] tail)
    (ha : ParamLine q tail as) (h1 : fold x ≠ "/e".toList) (h2 : fold x ≠ "/?".toList)
    (hh : ∀ a, as.head? = some a → fold a ≠ "/?".toList) :
    callScan c.ex cmdly {} (skipBlanks line) = .ok (.done (callTake {} x) tail) := by
  obtain ⟨t, e1, e2, e3⟩ := prefix_next hq hc hp he c (prefix_skip h)
  have ht : t = tail := by
    rcases e3 with ⟨-, e⟩ | e
    · exact e
    · cases e
  subst ht
  rw [callScan_take c cmdly {} e1 e2 (fun _ => h1) h2 (.inl rfl)]
  refine callScan_stop c cmdly _ (kept_line hq hc hp he ha) ?_ (.inl ?_) hh
  · unfold callTake; split <;> simp
  · unfold callTake; split <;> rfl

/-- The switch and two parameters, then arguments. -/
theorem callScan_two {q : Char → Bool} (hq : q '"' = true) (hc : q '^' = true) (hp : q '%' = true) (he : q '!' = true)
    (c : Ctx) {line e x y tail : List Char} {as : List (List Char)} (h : ParamPrefix q line [e, x, y] tail)
    (ha : ParamLine q tail as) (h0 : fold e = "/e".toList) (h1 : fold x ≠ "/e".toList) (h2 : fold x ≠ "/?".toList)
    (h3 : fold y ≠ "/?".toList) (hh : ∀ a, as.head? = some a → fold a ≠ "/?".toList) :
    callScan c.ex false {} (skipBlanks line) = .ok (.done (callTake (callTake { ext := true } x) y) tail) := by
  obtain ⟨t, e1, e2, e3⟩ := prefix_next hq hc hp he c (prefix_skip h)
  rcases e3 with ⟨e, -⟩ | e3
  · simp at e
  obtain ⟨u, f1, f2, f3⟩ := prefix_next hq hc hp he c e3
  rcases f3 with ⟨e, -⟩ | f3
  · simp at e
  obtain ⟨v, g1, g2, g3⟩ := prefix_next hq hc hp he c f3
  have hv : v = tail := by
    rcases g3 with ⟨-, e⟩ | e
    · exact e
    · cases e
  subst hv
  rw [callScan_ext c {} rfl e1 e2 h0, callScan_take c false _ f1 f2 (fun _ => h1) h2 (.inl rfl)]
  have hk : ∀ o x, (callTake o x).nb = o.nb + 1 ∧ (callTake o x).ext = o.ext := by
    intro o x; unfold callTake; split <;> exact ⟨rfl, rfl⟩
  rw [callScan_take c false _ g1 g2 (fun h => by rw [(hk _ _).1] at h; simp at h) h3
    (.inr ⟨by rw [(hk _ _).2], by rw [(hk _ _).1]⟩)]
  refine callScan_stop c false _ (kept_line hq hc hp he ha) ?_ (.inr ?_) hh
  · rw [(hk _ _).1]; simp
  · rw [(hk _ _).1, (hk _ _).1]

/-- Once the input of the callee is known. -/
theorem callFile_enter {W : Type} (d : CallDisk) (c : Ctx) (run : CallState → W → Res (CallState × W)) {file label : Option (List Char)}
    {path : Option (List Char)} {tail all zero : List Char} {as : List (List Char)} {f g : CallState} (w : W)
    (hfile : file.map d.full = path.map some) (hin : callInput d f path label = .ok (some (g, zero)))
    (hlev : g.level = f.level) (h : Kept tail as) (hall : c.ex tail = .ok all) (hpass : ∀ a ∈ as.drop 9, Passable a) :
    ∃ g', Begun f g' zero as all ∧ g'.name = g.name ∧ g'.loaded = g.loaded ∧ g'.script = g.script ∧ g'.eof = g.eof ∧
      callFile d c.ex run file label tail f w =
        (run g' w).bind fun r => .ok (r.1.level, { f with abort := .no, level := r.1.level }, r.2) := by
  obtain ⟨b, h1, h2, h3⟩ := callArgs_holds c (zero := zero) h hall hpass
  refine ⟨{ g with loops := fun _ => none, args := b, locked := true }, ⟨h2.first, h3, fun _ => rfl, hlev, rfl⟩, rfl, rfl, rfl, rfl, ?_⟩
  unfold callFile
  rw [hfile]
  have hj : (path.map some).join = path := by cases path <;> rfl
  split
  · rename_i heq
    cases path <;> simp at heq
  · rw [hj, hin]
    simp only [Res.ok_bind]
    rw [h1]
    rfl

theorem updateFrame_same (d : CallDisk) (f : CallState) (t : FileText) (hn : f.name ≠ []) (hl : f.loaded = f.name)
    (hr : d.read f.name = some t) (hs : f.script.size = t.size) : updateFrame d f = some f := by
  unfold updateFrame
  rw [if_neg hn, if_neg (by simp [hl, hn]), hr]
  simp only [updateScript]
  rw [if_neg (by simp [hs])]

theorem updateFrame_new (d : CallDisk) (f : CallState) (t : FileText) (hn : f.name ≠ []) (hl : f.loaded ≠ f.name)
    (hr : d.read f.name = some t) :
    updateFrame d f = some { f with loaded := f.name, script := loadScript t.texts t.size } := by
  unfold updateFrame
  rw [if_neg hn, if_pos (.inr (Ne.symm hl)), hr]
  rfl

theorem toLower_dot (c : Char) : c.toLower = '.' ↔ c = '.' := by
  constructor
  · intro h
    have h1 := congrArg Char.toNat h
    rw [toLower_toNat] at h1
    have h2 : '.'.toNat = 46 := by decide
    rw [h2] at h1
    apply toNat_inj
    rw [h2]
    split at h1 <;> omega
  · rintro rfl; decide

/-- The shape of an extension of scripts. -/
theorem script_ext {e : List Char} (h : fold e = ".bat".toList ∨ fold e = ".cmd".toList) :
    ∃ s, e = '.' :: s ∧ '.' ∉ s ∧ ∀ c ∈ e, ¬ PathSep c := by
  have hsep : ∀ c ∈ e, ¬ PathSep c := by
    intro c hc hs
    have hm : c.toLower ∈ fold e := List.mem_map.2 ⟨c, hc, rfl⟩
    rcases hs with rfl | rfl <;> rcases h with h | h <;> rw [h] at hm <;> revert hm <;> decide
  cases e with
  | nil => rcases h with h | h <;> exact absurd h (by decide)
  | cons c s =>
    have hc : c.toLower = '.' := by
      rcases h with h | h <;> exact (List.cons.inj h).1
    refine ⟨s, by rw [(toLower_dot c).1 hc], ?_, hsep⟩
    intro hd
    have hm : '.' ∈ fold s := List.mem_map.2 ⟨'.', hd, by decide⟩
    rcases h with h | h <;> rw [show fold s = _ from (List.cons.inj h).2] at hm <;> revert hm <;> decide

theorem last_dot {x y r s : List Char} (h : x ++ '.' :: r = y ++ '.' :: s) (hr : '.' ∉ r) (hs : '.' ∉ s) : r = s := by
  rcases List.append_eq_append_iff.1 h with ⟨z, hz1, hz2⟩ | ⟨z, hz1, hz2⟩
  · cases z with
    | nil => simpa using hz2
    | cons c z =>
      simp only [List.cons_append, List.cons.injEq] at hz2
      exact absurd (hz2.2 ▸ (by simp : '.' ∈ z ++ '.' :: s)) hr
  · cases z with
    | nil => simpa using hz2.symm
    | cons c z =>
      simp only [List.cons_append, List.cons.injEq] at hz2
      exact absurd (hz2.2 ▸ (by simp : '.' ∈ z ++ '.' :: r)) hs

/-- The test of the extension. -/
theorem isScript_iff (path : List Char) (hlen : path.length < 4096) (hd : ¬ HasDrive path) (hcar : '^' ∉ path) :
    ∃ b, isScript path = .ok b ∧ (b = true ↔ ScriptPath path) := by
  obtain ⟨dir, name, ext, h1, h2, h3, h4, h5⟩ := C36_split_partial 4096 path hlen hd hcar
  refine ⟨_, by unfold isScript; rw [h1]; rfl, ?_⟩
  simp only [Bool.or_eq_true, decide_eq_true_eq, stricmp_zero]
  constructor
  · intro h
    refine ⟨dir ++ name, ext, h2.symm, ?_⟩
    rcases h with h | h
    · exact .inl (by rw [h]; rfl)
    · exact .inr (by rw [h]; rfl)
  · rintro ⟨b, e, hp, he⟩
    obtain ⟨s, rfl, hs, hsep⟩ := script_ext he
    have hee : ext = '.' :: s := by
      rcases h5 with ⟨rfl, hn⟩ | ⟨r, rfl, hr⟩
      · exfalso
        rw [List.append_nil] at h2
        rw [← h2] at hp
        rcases List.append_eq_append_iff.1 hp with ⟨z, hz1, hz2⟩ | ⟨z, hz1, hz2⟩
        · exact hn (by rw [hz2]; simp)
        · rcases h3 with rfl | ⟨d, c, rfl, hc⟩
          · have : z = [] := by
              have := congrArg List.length hz1
              simp at this
              exact List.length_eq_zero_iff.1 (by omega)
            subst this
            exact hn (by rw [← show '.' :: s = name by simpa using hz2]; simp)
          · cases hz : z.reverse with
            | nil =>
              have : z = [] := by simpa using hz
              subst this
              exact hn (by rw [← show '.' :: s = name by simpa using hz2]; simp)
            | cons c' z' =>
              have hzz : z = z'.reverse ++ [c'] := by rw [← List.reverse_reverse z, hz]; simp
              rw [hzz, ← List.append_assoc] at hz1
              have hcc := (List.append_inj' hz1 rfl).2
              simp only [List.cons.injEq, and_true] at hcc
              refine hsep c ?_ hc
              rw [hz2, hzz, hcc]; simp
      · have : (dir ++ name) ++ '.' :: r = b ++ '.' :: s := by rw [h2]; exact hp
        rw [last_dot this hr hs]
    rw [hee]
    rcases he with he | he
    · exact .inl (by rw [he]; rfl)
    · exact .inr (by rw [he]; rfl)

end PBat
