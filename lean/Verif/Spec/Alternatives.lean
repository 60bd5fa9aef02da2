import Verif.Spec.Members

/-! Unions whose alternatives can be told apart. -/

namespace Scheme

/-- The member rejects the type of the value: it raises an InvalidTypeError. -/
def RejectsType (r : Except Exn Val) : Prop := ∃ e : SErr, e.cls = .invalidType ∧ r = .error (.structural e)

/-- Every field of the list rejects the type of the value. -/
def RejectedBy (env : Env) (n : Nat) (fs : List Field) (v : Val) (ph : Phase) (ser : Bool) (anc : List Str) : Prop :=
  ∀ f ∈ fs, ∃ g, resolve env f = some g ∧ RejectsType (process env n g v ph ser anc)

/-- `pre` are the alternatives before `g`; all of them reject the type of `v`, and `g` turns it into `r`. -/
def Picks (env : Env) (n : Nat) (fs pre : List Field) (g : Field) (v : Val) (ph : Phase) (ser : Bool) (anc : List Str) (r : Val) : Prop :=
  (∃ f post, fs = pre ++ f :: post ∧ resolve env f = some g) ∧ RejectedBy env n pre v ph ser anc ∧ process env n g v ph ser anc = .ok r

/-- The alternatives of a union can be told apart by native values: what one of them makes of a value the ones before
it rejected, is rejected by them as well; None as a result is allowed only where None as a value is. -/
def NativesApart (env : Env) (c : Common) (fs : List Field) : Prop :=
  ∀ n pre g v ser anc r, v ≠ .none → Picks env n fs pre g v .inbound ser anc r →
    (r = .none → c.nonnull = false ∧ c.ignoreNull = false) ∧ (r ≠ .none → ∀ anc', RejectedBy env n pre r .inbound false anc')

/-- The alternatives of a union can be told apart by what is written of `v`: the one that writes `v` accepts `v` as a
native value, and the ones before it reject both `v` as a native value and what is written. -/
def WrittenApart (env : Env) (fs : List Field) (v : Val) : Prop :=
  ∀ n pre g anc s, Picks env n fs pre g v .outbound true anc s → s ≠ .none ∧ ∀ anc',
    (∃ w, process env n g v .inbound false anc' = .ok w) ∧ RejectedBy env n pre v .inbound false anc' ∧
    RejectedBy env n pre s .inbound true anc'

/-- The same for what comes back when written data has been carried by something else (a file format). -/
def CarriedApart (env : Env) (C : Val → Val → Prop) (fs : List Field) (v : Val) : Prop :=
  ∀ n pre g anc s s', Picks env n fs pre g v .outbound true anc s → C s s' → s' ≠ .none ∧ ∀ anc', RejectedBy env n pre s' .inbound true anc'

end Scheme
