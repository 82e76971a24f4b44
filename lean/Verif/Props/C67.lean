import Verif.Spec.Type
import Verif.Props.C14
import Verif.Lemmas.Shift
/-
C67: TYPE displays the files it is given, byte for byte.
-/
namespace PBat
open Spec

/-! ### Helper lemmas -/

theorem typeChunks_eq (s : List Char) : typeChunks s = s := by
  fun_induction typeChunks s with
  | case1 s h => exact (List.length_eq_zero_iff.1 h).symm
  | case2 s h ih => rw [ih, List.take_append_drop]

theorem typeFile_ok {d : TypeDisk} {f s : List Char} (h : d.bytes f = some s) : typeFile d f = (s, 0) := by
  simp only [typeFile, h, typeChunks_eq]

theorem typeSeveral_cons (d : TypeDisk) (f : List Char) (fs : List (List Char)) :
    typeSeveral d (f :: fs) = (titled f (typeFile d f).1 ++ (typeSeveral d fs).1, (typeFile d f).2 ||| (typeSeveral d fs).2) := by
  have h : ∀ s, titled f s = typeHeader f ++ s := by
    intro s
    unfold titled typeHeader
    generalize "---------- ".toList = x
    simp
  rw [h]
  rfl

theorem typeSeveral_ok {d : TypeDisk} {fs ss : List (List Char)} (h : fs.map d.bytes = ss.map some) :
    typeSeveral d fs = ((List.zipWith titled fs ss).flatten, 0) := by
  induction fs generalizing ss with
  | nil => cases ss <;> rfl
  | cons f fs ih =>
    cases ss with
    | nil => simp at h
    | cons s ss =>
      simp only [List.map_cons, List.cons.injEq] at h
      simp only [typeSeveral_cons, ih h.2, typeFile_ok h.1, List.zipWith_cons_cons, List.flatten_cons, Nat.or_self]

theorem typeFiles_ok {d : TypeDisk} {l : List (List Char)} {o : List Char} (h : Displays d (l.filter fun f => !d.isDir f) o) :
    typeFiles d l = ⟨o, [], 0⟩ := by
  generalize hl : (l.filter fun f => !d.isDir f) = fs at h
  unfold typeFiles
  rw [hl]
  cases h with
  | one hb => simp only [typeFile_ok hb]
  | several h2 hm =>
    match fs, h2 with
    | a :: b :: r, _ => simp only [typeSeveral_ok hm]

theorem displays_ne {d : TypeDisk} {fs : List (List Char)} {o : List Char} (h : Displays d fs o) : fs ≠ [] := by
  cases h with
  | one _ => simp
  | several h _ => intro h0; rw [h0] at h; simp at h

theorem typeArgs_good {d : TypeDisk} (ps : List (List Char)) (h : ∀ p ∈ ps, p ≠ "/?".toList ∧ d.find p ≠ []) (acc : List (List Char)) :
    typeArgs d acc ps = .files (ps.foldl (fun a p => typeCat a (d.find p)) acc) := by
  induction ps generalizing acc with
  | nil => rfl
  | cons p ps ih =>
    obtain ⟨h1, h2⟩ := h p (by simp)
    simp only [typeArgs]
    rw [if_neg h1, if_neg h2, ih (fun x hx => h x (by simp [hx]))]
    rfl

theorem cat_last {d : TypeDisk} (mid : List (List Char)) (f : List Char) (l : List (List Char)) (p : List Char) :
    (mid ++ [p]).foldl (fun a p => typeCat a (d.find p)) (f :: l) = f :: d.find p := by
  induction mid generalizing l with
  | nil => rfl
  | cons q mid ih => rw [List.cons_append, List.foldl_cons]; exact ih _

theorem cmdType_files {ex : List Char → Res (List Char)} {help : List Char} {d : TypeDisk} {line input : List Char}
    {ps l : List (List Char)} (hp : allParams stdDelims ex line = .ok ps) (hl : typeArgs d [] ps = .files l) (hne : l ≠ []) :
    cmdType ex help d line input = .ok (typeFiles d l) := by
  unfold cmdType
  rw [hp]
  simp only [Res.ok_bind, hl]

/-! ### The property -/

/-- TYPE with one parameter, or with two of which the first names one file, displays every file named that is not a directory, byte for
byte, each after its name if there are several.  Partial: with more parameters, or more files for the first one, files are lost
(`C67_lost`); and the names are not on the standard error output (`C67_names`). -/
theorem C67_type_partial (c : Ctx) (q : Char → Bool) (hqq : q '"' = true) (hqc : q '^' = true) (hqp : q '%' = true) (hqe : q '!' = true)
    (help : List Char) (d : TypeDisk) (line input o : List Char) (ps : List (List Char)) (hl : ParamLine q line ps)
    (hps : ∀ p ∈ ps, p ≠ "/?".toList ∧ d.find p ≠ []) (hs : (∃ p, ps = [p]) ∨ ∃ p p' f, ps = [p, p'] ∧ d.find p = [f])
    (ho : Displays d (typed d ps) o) : cmdType c.ex help d line input = .ok ⟨o, [], 0⟩ := by
  have hp : allParams stdDelims c.ex line = .ok ps := C14_roundtrip c.delayed c.loops c.mods c.getv q hqq hqc hqp hqe line ps hl
  have hne := displays_ne ho
  have key : typeArgs d [] ps = .files (ps.flatMap d.find) := by
    rw [typeArgs_good ps hps]
    rcases hs with ⟨p, rfl⟩ | ⟨p, p', f, rfl, hf⟩
    · simp [typeCat]
    · simp [typeCat, hf]
  rw [cmdType_files hp key, typeFiles_ok (by exact ho)]
  intro h0
  apply hne
  unfold typed
  rw [h0]
  rfl

/-- A parameter that names no file: nothing is displayed, whatever comes before and after. -/
theorem C67_no_match (ex : List Char → Res (List Char)) (help : List Char) (d : TypeDisk) (line input : List Char)
    (a b : List (List Char)) (p : List Char) (hp : allParams stdDelims ex line = .ok (a ++ p :: b))
    (ha : ∀ p ∈ a, p ≠ "/?".toList) (hh : p ≠ "/?".toList) (hf : d.find p = []) :
    cmdType ex help d line input = .ok ⟨[], [], 42⟩ := by
  have key : ∀ acc, typeArgs d acc (a ++ p :: b) = .noMatch := by
    induction a with
    | nil => intro acc; simp only [List.nil_append, typeArgs]; rw [if_neg hh, if_pos hf]
    | cons x a ih =>
      intro acc
      have ih' : ∀ acc, typeArgs d acc (a ++ p :: b) = .noMatch := by
        clear hp
        have ha' : ∀ p ∈ a, p ≠ "/?".toList := fun y hy => ha y (by simp [hy])
        clear ih ha
        induction a with
        | nil => intro acc; simp only [List.nil_append, typeArgs]; rw [if_neg hh, if_pos hf]
        | cons y a ih =>
          intro acc
          simp only [List.cons_append, typeArgs]
          rw [if_neg (ha' y (by simp))]
          split
          · rfl
          · exact ih (fun z hz => ha' z (by simp [hz])) _
      simp only [List.cons_append, typeArgs]
      rw [if_neg (ha x (by simp))]
      split
      · rfl
      · exact ih' _
  unfold cmdType
  rw [hp]
  simp only [Res.ok_bind, key]

/-- Without parameter the input is copied to its end. -/
theorem C67_input (ex : List Char → Res (List Char)) (help : List Char) (d : TypeDisk) (w input : List Char)
    (hw : ∀ c ∈ w, Blank c) : cmdType ex help d w input = .ok ⟨input, [], 0⟩ := by
  have hp : allParams stdDelims ex w = .ok [] := by
    rw [allParams.eq_1, nextParam_nil]
    have := skipBlanks_append (s := []) hw
    rw [List.append_nil] at this
    rw [this]; rfl
  unfold cmdType
  rw [hp]
  simp only [Res.ok_bind, typeArgs, typeChunks_eq]

/-- A file that cannot be read does not hide the others; the status tells. -/
theorem C67_unreadable (ex : List Char → Res (List Char)) (help : List Char) (d : TypeDisk) (line input p f g s : List Char)
    (hp : allParams stdDelims ex line = .ok [p]) (hh : p ≠ "/?".toList) (hf : d.find p = [f, g]) (hdf : d.isDir f = false)
    (hdg : d.isDir g = false) (hb : d.bytes f = none) (hg : d.bytes g = some s) :
    cmdType ex help d line input = .ok ⟨titled f [] ++ titled g s, [], 1⟩ := by
  rw [cmdType_files (l := [f, g]) hp (by simp only [typeArgs]; rw [if_neg hh, hf, if_neg (by simp)]; rfl) (by simp)]
  have h1 : [f, g].filter (fun f => !d.isDir f) = [f, g] := by simp [hdf, hdg]
  have h2 : typeFile d f = ([], 1) := by simp only [typeFile, hb]
  have h3 : typeSeveral d [] = ([], 0) := rfl
  unfold typeFiles
  rw [h1]
  simp only [typeSeveral_cons, typeFile_ok hg, h2, h3, List.append_nil]
  rfl

/-! ### Violations -/

/-- With two parameters or more, only the first file of the first parameter and the files of the last one are displayed. -/
theorem C67_lost (ex : List Char → Res (List Char)) (help : List Char) (d : TypeDisk) (line input p p' f : List Char)
    (mid fs : List (List Char)) (hp : allParams stdDelims ex line = .ok (p :: (mid ++ [p'])))
    (hps : ∀ x ∈ p :: (mid ++ [p']), x ≠ "/?".toList ∧ d.find x ≠ []) (hf : d.find p = f :: fs) :
    cmdType ex help d line input = .ok (typeFiles d (f :: d.find p')) := by
  refine cmdType_files hp ?_ (by simp)
  rw [typeArgs_good _ hps, List.foldl_cons, hf]
  exact congrArg TypeArgs.files (cat_last mid f fs p')

/-- `TYPE a b c` displays `a` and `c`. -/
theorem C67_three (ex : List Char → Res (List Char)) (help : List Char) (d : TypeDisk) (line input a b c sa sc : List Char)
    (hp : allParams stdDelims ex line = .ok [a, b, c]) (hh : ∀ x ∈ [a, b, c], x ≠ "/?".toList ∧ d.find x = [x] ∧ d.isDir x = false)
    (ha : d.bytes a = some sa) (hc : d.bytes c = some sc) :
    cmdType ex help d line input = .ok ⟨titled a sa ++ titled c sc, [], 0⟩ := by
  have h1 := hh a (by simp)
  have h3 := hh c (by simp)
  rw [C67_lost ex help d line input a c a [b] [] hp (fun x hx => by
    have := hh x (by simpa using hx)
    exact ⟨this.1, by rw [this.2.1]; simp⟩) h1.2.1, h3.2.1]
  have h4 : [a, c].filter (fun f => !d.isDir f) = [a, c] := by simp [h1, h3]
  have h5 : typeSeveral d [] = ([], 0) := rfl
  unfold typeFiles
  rw [h4]
  simp only [typeSeveral_cons, typeFile_ok ha, typeFile_ok hc, h5, List.append_nil, Nat.or_self]

/-- The names of the files are mixed with their bytes on the standard output; nothing is ever written on the standard error output. -/
theorem C67_names (ex : List Char → Res (List Char)) (help : List Char) (d : TypeDisk) (line input : List Char) (r : TypeOut)
    (h : cmdType ex help d line input = .ok r) : r.err = [] := by
  unfold cmdType at h
  cases hp : allParams stdDelims ex line with
  | ub => rw [hp] at h; simp at h
  | hang => rw [hp] at h; simp at h
  | ok ps =>
    rw [hp] at h
    simp only [Res.ok_bind, Res.ok.injEq] at h
    rw [← h]
    split
    · rfl
    · rfl
    · rfl
    · unfold typeFiles
      split <;> rfl

/-! ### Examples -/

def typeDisk : TypeDisk where
  find p := if p = "*.txt".toList then ["a.txt".toList, "d.txt".toList, "b.txt".toList] else [p]
  isDir f := f = "d.txt".toList
  bytes f := if f = "a.txt".toList then some "one".toList else if f = "b.txt".toList then some "two\n".toList else none

example : Displays typeDisk (typed typeDisk ["*.txt".toList]) "---------- a.txt\none---------- b.txt\ntwo\n".toList := by
  have : typed typeDisk ["*.txt".toList] = ["a.txt".toList, "b.txt".toList] := by decide
  rw [this]
  exact .several (ss := ["one".toList, "two\n".toList]) (by decide) (by decide)

example : ParamLine (fun c => c == '"' || c == '^' || c == '%' || c == '!') " *.txt".toList ["*.txt".toList] :=
  .last (w := " ".toList) (by decide) (.word (by decide) (by decide) (by decide) (by decide))

end PBat
