import Verif.Spec.Members
import Verif.Spec.Conforms

/-! Where errors are located. -/

namespace Scheme

/-- An error of the field itself at `anc`: one entry, nothing nested. -/
def Own (anc : List Str) (e : SErr) : Prop :=
  e.identity = anc ∧ e.struct = .none ∧ ∃ token title message, e.errors = [errItem token title message]

mutual

/-- `Located env ph ser f anc e`: the error `e` raised by processing with the field `f` at `anc`, and everything
nested in it, is where a user expects it: at the path of the value it is about. -/
inductive Located (env : Env) (ph : Phase) (ser : Bool) : Field → List Str → SErr → Prop
  | own {f anc e} : Own anc e → Located env ph ser f anc e
  | sequence {c item mn mx u anc cls l v g} : resolve env item = some g →
      (∀ (i : Nat) x, l[i]? = some x → Kept env ph ser g (anc ++ [idxStep i]) x) →
      Located env ph ser (.sequence c item mn mx u) anc ⟨cls, anc, [], .list l, v⟩
  | tuple {c fs anc cls l v} {gs : List Field} : l.length = fs.length → fs.map (resolve env) = gs.map some →
      (∀ (i : Nat) x g, l[i]? = some x → gs[i]? = some g → Kept env ph ser g (anc ++ [idxStep i]) x) →
      Located env ph ser (.tuple c fs) anc ⟨cls, anc, [], .list l, v⟩
  | map {c key value req anc cls d v} :
      (∀ k x, (k, x) ∈ d → MapEntry env ph ser value req anc k x) →
      Located env ph ser (.map c key value req) anc ⟨cls, anc, [], .dict d, v⟩
  /-- the error of the member that rejected the value -/
  | union {c fs f g anc e} : f ∈ fs → resolve env f = some g → Located env ph ser g anc e →
      Located env ph ser (.union c fs) anc e
  | «structure» {c defn strict ko anc cls d v} :
      (∀ k x, (k, x) ∈ d → MemberEntry env ph ser defn (visited defn ko) anc k x) →
      Located env ph ser (.structure c defn strict ko) anc ⟨cls, anc, [], .dict d, v⟩
  | variant {c disc vs strict ko i defn anc cls d v} : (i, defn) ∈ vs →
      (∀ k x, (k, x) ∈ d → MemberEntry env ph ser defn (visited defn ko) anc k x) →
      Located env ph ser (.poly c disc vs strict ko) anc ⟨cls, anc, [], .dict d, v⟩
  /-- deviation: the error of the discriminator is raised in place of one of the structure -/
  | disc {c disc vs strict ko anc e} : Located env ph ser disc (anc ++ ['.' :: disc.name.getD []]) e →
      Located env ph ser (.poly c disc vs strict ko) anc e
  /-- deviation: serializing an object that has no import path gives an error without location -/
  | object {c anc e} : ph = .outbound → ser = true → Own [c!"(unknown)"] e → Located env ph ser (.leaf c .object) anc e
  /-- errors raised while describing a field given as value, or by a surrogate's own schema, have the locations
  those operations gave them -/
  | describe {c valid anc h e} : ph = .outbound → ser = true → env.describe h = .error (.structural e) →
      Located env ph ser (.leaf c (.definition valid)) anc e
  | surrogateIn {c valid anc d e} : ph = .inbound → ser = true → env.surrUnserialize d = .error (.structural e) →
      Located env ph ser (.leaf c (.surrogate valid)) anc e
  | surrogateOut {c valid anc h e} : ph = .outbound → ser = true → env.surrSerialize h = .error (.structural e) →
      Located env ph ser (.leaf c (.surrogate valid)) anc e

/-- What a composite error stores for a child processed by `g` at `anc`: its value, or its error. -/
inductive Kept (env : Env) (ph : Phase) (ser : Bool) : Field → List Str → Val → Prop
  | good {g anc x m w} : process env m g w ph ser anc = .ok x → Kept env ph ser g anc x
  | bad {g anc e} : Located env ph ser g anc e → Kept env ph ser g anc e.toVal

/-- An entry of a map's error.  `k'` is the key that was processed; the dict may hold an equal one (1 for True). -/
inductive MapEntry (env : Env) (ph : Phase) (ser : Bool) : Field → List Val → List Str → Val → Val → Prop
  | required {value req anc k k' e} : k' ∈ req → (k' = k ∨ pyEq k' k = true) → Own anc e →
      MapEntry env ph ser value req anc k e.toVal
  | entry {value req anc k k' step g x} : (k' = k ∨ pyEq k' k = true) → keyStep env k' = .ok step →
      resolve env value = some g → Kept env ph ser g (anc ++ [step]) x → MapEntry env ph ser value req anc k x

/-- An entry of a structure's error: 'required' and 'unknown' errors sit at the structure itself, everything else at
the member.  Known are the names that are visited. -/
inductive MemberEntry (env : Env) (ph : Phase) (ser : Bool) :
    List (Str × Field) → List Str → List Str → Val → Val → Prop
  | required {defn order anc name g cg e} : name ∈ order → Declares env defn name g cg → cg.required = true →
      Own anc e → MemberEntry env ph ser defn order anc (.str name) e.toVal
  | unknown {defn order anc k e} : (∀ name ∈ order, k ≠ .str name) → Own anc e →
      MemberEntry env ph ser defn order anc k e.toVal
  | member {defn order anc name g cg x} : name ∈ order → Declares env defn name g cg →
      Kept env ph ser g (anc ++ ['.' :: name]) x → MemberEntry env ph ser defn order anc (.str name) x

end

end Scheme
