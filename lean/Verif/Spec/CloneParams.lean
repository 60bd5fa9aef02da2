import Verif.Model.CloneArgs

/-! What the keyword arguments of `field.clone(...)` change. -/

namespace Scheme

/-- A keyword argument that every field takes changes the attribute of that name; an argument that the constructor of the
field does not name changes the aspect of that name, unless it is None or its name begins with an underscore: then it
changes nothing. -/
inductive ChangeCommon (known : List Str) : Str → Item → Common → Common → Prop
  | name (c : Common) (o : Option Str) : ChangeCommon known c!"name" (.val (nameV o)) c { c with name := o }
  | description (c : Common) (v : Val) : ChangeCommon known c!"description" (.val v) c { c with description := v }
  | default (c : Common) (v : Val) : ChangeCommon known c!"default" (.val v) c { c with default := v }
  | constant (c : Common) (v : Val) : ChangeCommon known c!"constant" (.val v) c { c with constant := v }
  | title (c : Common) (v : Val) : ChangeCommon known c!"title" (.val v) c { c with title := v }
  | notes (c : Common) (v : Val) : ChangeCommon known c!"notes" (.val v) c { c with notes := v }
  | nonnull (c : Common) (b : Bool) : ChangeCommon known c!"nonnull" (.val (.bool b)) c { c with nonnull := b }
  | ignoreNull (c : Common) (b : Bool) : ChangeCommon known c!"ignore_null" (.val (.bool b)) c { c with ignoreNull := b }
  | required (c : Common) (b : Bool) : ChangeCommon known c!"required" (.val (.bool b)) c { c with required := b }
  | preprocessor (c : Common) (o : Option Nat) : ChangeCommon known c!"preprocessor" (callableItem o) c { c with pre := o }
  | instantiator (c : Common) (o : Option Nat) : ChangeCommon known c!"instantiator" (callableItem o) c { c with instor := o }
  | extractor (c : Common) (o : Option Nat) : ChangeCommon known c!"extractor" (callableItem o) c { c with extor := o }
  | aspect (c : Common) {k : Str} {v : Val} (hk : k ∉ known) (h0 : k ≠ []) (h1 : k.head? ≠ some '_') (hv : v ≠ .none) :
      ChangeCommon known k (.val v) c { c with aspects := keySet k v c.aspects }
  | ignored (c : Common) {k : Str} {v : Val} (hk : k ∉ known) (h0 : k ≠ []) (h : k.head? = some '_' ∨ v = .none) :
      ChangeCommon known k (.val v) c c

/-- The keyword arguments of the single field classes. -/
inductive ChangeLeaf : Str → Item → Leaf → Leaf → Prop
  | binaryMin (a b x) : ChangeLeaf c!"min_length" (.val (natV x)) (.binary a b) (.binary x b)
  | binaryMax (a b x) : ChangeLeaf c!"max_length" (.val (natV x)) (.binary a b) (.binary a x)
  | dateMin (a b x) : ChangeLeaf c!"minimum" (.val (dateV x)) (.date a b) (.date x b)
  | dateMax (a b x) : ChangeLeaf c!"maximum" (.val (dateV x)) (.date a b) (.date a x)
  | dateTimeMin (a b u x) : ChangeLeaf c!"minimum" (.val (dateTimeV x)) (.datetime a b u) (.datetime x b u)
  | dateTimeMax (a b u x) : ChangeLeaf c!"maximum" (.val (dateTimeV x)) (.datetime a b u) (.datetime a x u)
  | dateTimeUtc (a b u x) : ChangeLeaf c!"utc" (.val (.bool x)) (.datetime a b u) (.datetime a b x)
  | decimalMin (a b x) : ChangeLeaf c!"minimum" (.val (decV x)) (.decimal a b) (.decimal x b)
  | decimalMax (a b x) : ChangeLeaf c!"maximum" (.val (decV x)) (.decimal a b) (.decimal a x)
  | definition (a x) : ChangeLeaf c!"valid_fields" (.val (typesV x)) (.definition a) (.definition x)
  | emailMin (a b m e x) : ChangeLeaf c!"min_length" (.val (natV x)) (.email a b m e) (.email x b m e)
  | emailMax (a b m e x) : ChangeLeaf c!"max_length" (.val (natV x)) (.email a b m e) (.email a x m e)
  | emailMultiple (a b m e x) : ChangeLeaf c!"multiple" (.val (.bool x)) (.email a b m e) (.email a b x e)
  | emailExtended (a b m e x) : ChangeLeaf c!"extended" (.val (.bool x)) (.email a b m e) (.email a b m x)
  | enumIgnored (a b x) : ChangeLeaf c!"ignored_values" (.val (listV x)) (.enumeration a b) (.enumeration a x)
  | floatMin (a b x) : ChangeLeaf c!"minimum" (.val (floatV x)) (.float a b) (.float x b)
  | floatMax (a b x) : ChangeLeaf c!"maximum" (.val (floatV x)) (.float a b) (.float a x)
  | integerMin (a b x) : ChangeLeaf c!"minimum" (.val (intV x)) (.integer a b) (.integer x b)
  | integerMax (a b x) : ChangeLeaf c!"maximum" (.val (intV x)) (.integer a b) (.integer a x)
  | surrogate (a x) : ChangeLeaf c!"valid_surrogates" (.val (typesV x)) (.surrogate a) (.surrogate x)
  | textMin (p a b s x) : ChangeLeaf c!"min_length" (.val (natV x)) (.text p a b s) (.text p x b s)
  | textMax (p a b s x) : ChangeLeaf c!"max_length" (.val (natV x)) (.text p a b s) (.text p a x s)
  | textPattern (p a b s x) : ChangeLeaf c!"pattern" (patternItem x) (.text p a b s) (.text x a b s)
  | textStrip (p a b s x) : ChangeLeaf c!"strip" (.val (.bool x)) (.text p a b s) (.text p a b x)
  | timeMin (a b x) : ChangeLeaf c!"minimum" (.val (timeV x)) (.time a b) (.time x b)
  | timeMax (a b x) : ChangeLeaf c!"maximum" (.val (timeV x)) (.time a b) (.time a x)
  | tokenSegments (a x) : ChangeLeaf c!"segments" (.val (intV x)) (.token a) (.token x)

/-- `Change k v f g`: `g` is `f` with the one thing changed that the keyword argument `k = v` stands for. -/
inductive Change : Str → Item → Field → Field → Prop
  | common {k : Str} {v : Item} {f : Field} {c c' : Common} (hf : f.common? = some c)
      (h : ChangeCommon (ctorKeys f.type ++ baseKeys) k v c c') (hr : k ≠ c!"representation") :
      Change k v f (f.setCommon fun _ => c')
  | leaf {k : Str} {v : Item} (c : Common) {l l' : Leaf} (h : ChangeLeaf k v l l') : Change k v (.leaf c l) (.leaf c l')
  | sequenceMin (c i a b u x) : Change c!"min_length" (.val (natV x)) (.sequence c i a b u) (.sequence c i x b u)
  | sequenceMax (c i a b u x) : Change c!"max_length" (.val (natV x)) (.sequence c i a b u) (.sequence c i a x u)
  | sequenceUnique (c i a b u x) : Change c!"unique" (.val (.bool x)) (.sequence c i a b u) (.sequence c i a b x)
  | mapRequired (c k v r x) : Change c!"required_keys" (.val (listV x)) (.map c k v r) (.map c k v x)
  | structureStrict (c d s o x) : Change c!"strict" (.val (.bool x)) (.structure c d s o) (.structure c d x o)
  | structureOrder (c d s o x) : Change c!"key_order" (.val (listV (x.map .str))) (.structure c d s o) (.structure c d s x)
  | polyStrict (c d vs s o x) : Change c!"strict" (.val (.bool x)) (.poly c d vs s o) (.poly c d vs x o)
  | polyOrder (c d vs s o x) : Change c!"key_order" (.val (listV (x.map .str))) (.poly c d vs s o) (.poly c d vs s x)

/-- `Changes params f g`: `g` is `f` with everything changed that the keyword arguments stand for. -/
inductive Changes : Kw → Field → Field → Prop
  | nil (f : Field) : Changes [] f f
  | cons {k : Str} {v : Item} {params : Kw} {f g h : Field} (hk : k ∉ params.map (·.1)) (h₁ : Change k v f g)
      (h₂ : Changes params g h) : Changes ((k, v) :: params) f h

/-- What the constructors establish: members of enumerations are natively serializable, the bounds of a DateTime are in its
zone, an Email is not both multiple and extended, valid field types exist, placeholders are not accepted as keys, the
discriminator of a polymorphic structure is required and has a name. -/
def Made (env : Env) : Field → Prop
  | .leaf c k => match k with
    | .datetime mn mx utc => (∀ d, mn = some d → normalizeDT env utc d = .ok d) ∧ ∀ d, mx = some d → normalizeDT env utc d = .ok d
    | .definition valid => ∀ t ∈ valid, t ∈ fieldTypes
    | .email _ _ multiple extended => c.errors = [] ∧ (multiple && extended) = false
    | .enumeration vals ign => (∀ v ∈ vals, nativeType v = true) ∧ ∀ v ∈ ign, nativeType v = true
    | _ => True
  | .map _ key _ _ => ∀ k, key = some k → ∀ s, k ≠ .undef s
  | .poly _ disc variants _ _ => (∀ s, disc ≠ .undef s) ∧ (∃ ch on, disc.name = some (ch :: on)) ∧
      (∀ c, disc.common? = some c → c.required = true) ∧
      dictGet (variants.map fun v => (v.1, Val.none)) (.str c!"*") = none
  | .undef _ => False
  | _ => True

/-- What a keyword argument that holds fields stands for. -/
inductive Replaces : Str → Item → Field → Field → Prop
  | item (c i a b u j) : Replaces c!"item" (.arg (.field j)) (.sequence c i a b u) (.sequence c j a b u)
  | values (c l m) : Replaces c!"values" (.arg (.tuple (m.map .field))) (.tuple c l) (.tuple c m)
  | fields (c l m) : Replaces c!"fields" (.arg (.tuple (m.map .field))) (.union c l) (.union c m)
  | «structure» (c d s o e) : Replaces c!"structure" (.arg (defnItem e)) (.structure c d s o) (.structure c e s o)

/-! ### The arguments `aspects`, `errors` and `nonempty` -/

/-- What `nonempty` does to the attributes that every field has. -/
def needC (ne : Bool) (c : Common) : Common := { c with nonnull := ne || c.nonnull, required := ne || c.required }

/-- What `nonempty` does to a minimum length. -/
def needMin : Bool → Option Nat → Option Nat
  | true, none => some 1
  | _, o => o

def needL (ne : Bool) : Leaf → Leaf
  | .binary mn mx => .binary (needMin ne mn) mx
  | .text p mn mx s => .text p (needMin ne mn) mx s
  | .email mn mx m e => .email (needMin ne mn) mx m e
  | k => k

/-- What `nonempty` does to a field. -/
def needed (ne : Bool) : Field → Field
  | .leaf c k => .leaf (needC ne c) (needL ne k)
  | f => f.setCommon (needC ne)

/-- The arguments `aspects`, `errors` and `nonempty`. -/
def extras (A : Option (List (Str × Val))) (E : Option (List FErr)) (N : Option Bool) : Kw :=
  (match A with | some a => [(c!"aspects", .aspects a)] | none => []) ++
    ((match E with | some l => [(c!"errors", .errors l)] | none => []) ++
      match N with | some b => [(c!"nonempty", .val (.bool b))] | none => [])

/-- The field with the aspects and the errors given. -/
def prepared (A : Option (List (Str × Val))) (E : Option (List FErr)) (f : Field) : Field :=
  f.setCommon fun c => { c with aspects := A.getD c.aspects, errors := if E.isSome then [] else c.errors }

/-- Email fields. -/
def Field.isEmail : Field → Bool
  | .leaf _ k => k.isEmail
  | _ => false

/-- The result with the errors given; an Email has its own. -/
def withErrors (E : Option (List FErr)) (f : Field) : Field :=
  match E with
  | none => f
  | some l => if f.isEmail then f else f.setCommon fun c => { c with errors := l }

end Scheme
