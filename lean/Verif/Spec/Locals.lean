import Verif.Model.Locals
import Verif.Spec.Env
/-
Specification of procedure-local variables.
-/
namespace PBat.Spec

/-- A name (up to case) of a local variable. -/
def LocalName (k : List Char) : Prop := k.head? = some '_'
instance (k : List Char) : Decidable (LocalName k) := by unfold LocalName; infer_instance

/-- A name that is local or starts with an upper case ASCII letter. -/
def NiceName (n : List Char) : Prop :=
  n.head? = some '_' ∨ ∃ c, n.head? = some c ∧ 'A'.toNat ≤ c.toNat ∧ c.toNat ≤ 'Z'.toNat

mutual
/-- The command marks the name `k` as inheritable, directly or in a procedure it calls. -/
def Marks (k : List Char) : PCmd → Prop
  | .set n c _ inh => c ≠ [] ∧ inh = true ∧ fold (trim n.txt) = k
  | .unset _ => False
  | .call _ body => MarksAny k body
/-- Some command of the list does. -/
def MarksAny (k : List Char) : List PCmd → Prop
  | [] => False
  | c :: cs => Marks k c ∨ MarksAny k cs
end

mutual
/-- The command removes the name `k`, directly or in a procedure it calls. -/
def Removes (k : List Char) : PCmd → Prop
  | .set n c _ _ => c = [] ∧ fold n.txt = k
  | .unset n => fold n.txt = k
  | .call _ body => RemovesAny k body
/-- Some command of the list does. -/
def RemovesAny (k : List Char) : List PCmd → Prop
  | [] => False
  | c :: cs => Removes k c ∨ RemovesAny k cs
end

mutual
/-- Pointers below 2^31, names nice. -/
def PNice : PCmd → Prop
  | .set n _ cpy _ => 0 < n.addr ∧ 0 < cpy ∧ NiceName (trim n.txt)
  | .unset n => 0 < n.addr
  | .call addr body => (∀ v, 0 < addr v) ∧ PNiceAll body
/-- All commands of the list. -/
def PNiceAll : List PCmd → Prop
  | [] => True
  | c :: cs => PNice c ∧ PNiceAll cs
end

/-- The tables met during a run, at any depth of procedure calls: from an inherited environment with nice,
different names, by commands and by entering procedures.  `marked` contains the names ever marked as
inheritable; they are never removed. -/
inductive PReach (L : LibC) (marked : List Char → Prop) : EnvBuf → Prop
  | init {env : List CPtr} {e : EnvBuf} : (∀ s ∈ env, '=' ∈ s.txt) → (∀ s ∈ env, 0 < s.addr) →
      (env.map fun s => fold (initName s.txt)).Nodup → (∀ s ∈ env, NiceName (initName s.txt)) →
      initEnv L env = some e → PReach L marked e
  | step {e e' : EnvBuf} {c : PCmd} : PReach L marked e → PNice c → (∀ k, Marks k c → marked k) →
      (∀ k, Removes k c → ¬ marked k) → pStep L e c = some e' → PReach L marked e'
  | enter {e : EnvBuf} {addr : Var → Int} : PReach L marked e → (∀ v, 0 < addr v) →
      PReach L marked (pushLocals L e addr)

end PBat.Spec
