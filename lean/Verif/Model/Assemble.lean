import Verif.Model.Construct

/-! `Structure.__init__` (scheme/fields/structure.py:64-113) as it acts on the objects it is given: it keeps the caller's
dicts, writes into them, and names the caller's fields. -/

namespace Scheme

/-- The objects a structure is made of: field objects, dicts of members (name to field object) and dicts of variants
(identity to dict of members), each by its address.  Simplification: what a field object consists of, apart from its
name, is not shared. -/
structure Stock where
  fields : List Field
  dicts : List (List (Str × Nat))
  outers : List (List (Val × Nat))

namespace Stock

/-- `value.update(common)` (structure.py:74) for the dicts at `d` and `common`. -/
def update (p : Stock) (common d : Nat) : Stock :=
  match p.dicts[common]?, p.dicts[d]? with
  | some new, some old => { p with dicts := p.dicts.set d (new.foldl (fun acc e => keySet e.1 e.2 acc) old) }
  | _, _ => p

/-- `if not field.name: field.name = name` (structure.py:572-573) for the field at `i`; a placeholder has no name. -/
def rename (p : Stock) (name : Str) (i : Nat) : Stock :=
  match p.fields[i]? with
  | some f => { p with fields := p.fields.set i (nameMember name f) }
  | none => p

/-- Structure._prevalidate_structure (structure.py:557-573) for a dict with these entries.  Simplifications: all entries
are fields; placeholders stay (structure.py:562-568 replaces those defined already). -/
def prevalidate (p : Stock) (entries : List (Str × Nat)) : Stock := entries.foldl (fun p e => p.rename e.1 e.2) p

/-- The loop over the variants (structure.py:97-100). -/
def assembleVariants (env : Env) (n : Nat) (disc : Field) (on : Str) : List (Val × Nat) → Stock → Except Exn Unit × Stock
  | [], p => (.ok (), p)
  | (id, d) :: r, p =>
    match p.dicts[d]? with
    | none => (.error (.py .typeError), p)
    | some entries =>
      match cloneWith env n disc fun c => { c with constant := id } with
      | .error e => (.error e, p.prevalidate entries)
      | .ok member =>
        assembleVariants env n disc on r
          { p.prevalidate entries with
            fields := (p.prevalidate entries).fields ++ [member]
            dicts := p.dicts.set d (keySet on (p.prevalidate entries).fields.length entries) }

/-- `key == '*'` for an identity. -/
def isStar (id : Val) : Bool := pyEq (.str c!"*") id

/-- `if '*' in structure: ...` (structure.py:71-74) for the dict of variants at `a`. -/
def spread (p : Stock) (a : Nat) (o : List (Val × Nat)) : Stock :=
  match o.find? fun e => isStar e.1 with
  | some e =>
    ((o.eraseP fun e => isStar e.1).map (·.2)).foldl (fun p d => p.update e.2 d)
      { p with outers := p.outers.set a (o.eraseP fun e => isStar e.1) }
  | none => p

end Stock

open Stock

/-- A structure: its own attributes, and the address of the caller's dict. -/
structure Assembled where
  common : Common
  disc : Field
  outer : Nat
  strict : Bool
  order : List Str

/-- `Structure(variants, strict, polymorphic_on, key_order=..., **params)` (structure.py:64-102) for the dict of variants
at `a`.  Simplifications: `generate_default` is not given; a discriminator given is no member. -/
def assemblePoly (env : Env) (n : Nat) (c : Common) (a : Nat) (on : On) (strict : Bool) (order : KeyOrder) (p : Stock) :
    Except Exn Assembled × Stock :=
  match p.outers[a]? with
  | none => (.error (.py .typeError), p)
  | some o =>
    let vs := o.eraseP fun e => isStar e.1
    let p := p.spread a o
    match discriminator env n (vs.map (·.1)) on with
    | .error e => (.error e, p)
    | .ok disc =>
      match keyOrderOf order with
      | .error e => (.error e, p)
      | .ok ko =>
        match disc.name with
        | some (ch :: name) =>
          match assembleVariants env n disc (ch :: name) vs p with
          | (.error e, p) => (.error e, p)
          | (.ok (), p) => (.ok ⟨c, disc, a, strict, ko⟩, p)
        | _ => (.error (.py (.other 2)), p)

/-- `Structure(members)` for the dict of members at `d` (structure.py:101-102): the dict is named and kept. -/
def assemblePlain (p : Stock) (d : Nat) : Except Exn Unit × Stock :=
  match p.dicts[d]? with
  | none => (.error (.py .typeError), p)
  | some entries => (.ok (), p.prevalidate entries)

end Scheme
