import Verif.Spec.Settled
import Verif.Spec.Sendable
import Verif.Model.Construct

/-! Schemas as programs declare them: by calling constructors. -/

namespace Scheme

/-- What is asked of the discriminator: a name, or a non-structural field without constant that may become required and take
each identity (none is None) for its constant. -/
def FitsOn (Q : Field → Prop) (ids : List Val) : On → Prop
  | .name _ => True
  | .field f => ∃ c k, f = .leaf c k ∧ c.constant = .none ∧ Q (.leaf { c with required := true } k) ∧
      ∀ id ∈ ids, id ≠ .none ∧ Q (.leaf { c with required := true, constant := id } k)

/-- The names a key order lists are distinct. -/
def DistinctOrder : KeyOrder → Prop
  | .text s => (splitOn ' ' s).Nodup
  | .list l => l.Nodup
  | _ => True

/-- The keys of a dict of members: distinct, and not empty. -/
def MemberKeys (defn : List (Str × Field)) : Prop := (defn.map (·.1)).Nodup ∧ ∀ e ∈ defn, e.1 ≠ []

/-- Fields made by constructors from fields so made, `Q` being what is asked of the parameters of each field. -/
inductive Composed (env : Env) (d : Nat) (Q : Field → Prop) : Field → Prop
  | leaf {c k} : Q (.leaf c k) → Composed env d Q (.leaf c k)
  | sequence {c item mn mx u} : Q (.sequence c item mn mx u) → Composed env d Q item → Composed env d Q (.sequence c item mn mx u)
  | map {c key value req} : Q (.map c key value req) → (∀ k, key = some k → Composed env d Q k) →
      Composed env d Q value → Composed env d Q (.map c key value req)
  | tuple {c fs} : Q (.tuple c fs) → (∀ f ∈ fs, Composed env d Q f) → Composed env d Q (.tuple c fs)
  | union {c fs} : Q (.union c fs) → (∀ f ∈ fs, Composed env d Q f) → Composed env d Q (.union c fs)
  | structure {c defn strict order gen f} : MemberKeys defn → (∀ e ∈ defn, Composed env d Q e.2) → DistinctOrder order →
      newStructure env c defn strict order gen = .ok f → Q f → Composed env d Q f
  | poly {c variants common on strict gen f} : (∀ v ∈ variants, MemberKeys v.2) → MemberKeys common →
      (∀ v ∈ variants, ∀ e ∈ v.2, Composed env d Q e.2) → (∀ e ∈ common, Composed env d Q e.2) →
      FitsOn Q (variants.map (·.1)) on →
      newPolymorphic env d c variants common on strict .none gen = .ok f → Q f → Composed env d Q f
  | undef {s} : Composed env d Q (.undef s)

/-- Placeholders are defined by fields so made. -/
def ComposedDefs (env : Env) (d : Nat) (Q : Field → Prop) : Prop :=
  ∀ s g, env.defs s = some g → Composed env d Q g ∧ ∀ t, g ≠ .undef t

/-- What C02 asks of the parameters of one field: no preprocessor; `ignore_null` neither with a default nor with `required`; an
Enumeration with `ignore_null` ignores no values; an Object is neither non-null nor `ignore_null`; the constant of a stripping
Text is stripped, and a DateTime has no constant; lower-casing behaves for Email; the alternatives of a union can be told
apart. -/
def Restrained (env : Env) (f : Field) : Prop :=
  (∀ c, f.common? = some c → c.pre = none ∧ (c.ignoreNull = true → c.default = .none ∧ c.required = false)) ∧
  match f with
  | .leaf c (.enumeration _ ign) => c.ignoreNull = true → ign = []
  | .leaf c .object => c.nonnull = false ∧ c.ignoreNull = false
  | .leaf c (.text _ _ _ true) => ∀ s, c.constant = .str s → TextForm env.u true s s
  | .leaf c (.datetime ..) => c.constant = .none
  | .leaf _ (.email _ _ _ false) => LowerLaw env.u
  | .union c fs => NativesApart env c fs
  | _ => True

/-- What C72 asks of the parameters of one field in addition: DateTimes in UTC; no Object, Definition or Surrogate; unique items
and keys are of types that are written as they are. -/
def Portable (env : Env) (f : Field) : Prop :=
  Restrained env f ∧
  match f with
  | .leaf _ (.datetime _ _ utc) => utc = true
  | .leaf _ .object | .leaf _ (.definition _) | .leaf _ (.surrogate _) => False
  | .sequence _ item _ _ u => u = true → ∃ c' k, resolve env item = some (.leaf c' k) ∧ CarriedAsIs k
  | .map _ key _ _ => ∀ kf, key = some kf → ∃ c' k, kf = .leaf c' k ∧ CarriedAsIs k
  | .poly _ disc _ _ _ => ∀ c k, disc = .leaf c k → CarriedAsIs k
  | _ => True

end Scheme
