import Verif.Lemmas.HeapOwn

/-! C81: extracting, instantiating and interpolating change no existing object, and build their own containers. -/

namespace Scheme

open HM

/-! ### No existing object is changed -/

/-- C81. Extracting changes no object that was there before, whether it succeeds or not, provided that the user's
functions do not. -/
theorem C81_extract_untouched {env : Env} {o : Outer} {O : HOuter} (hO : O.Safe) (strict : Bool) (params : Params) (n : Nat) (f : Field)
    (x : HVal) (h : Heap) (i : Nat) (hi : i < h.length) : ((hExtract env o O strict params n f x).run h).2[i]? = h[i]? :=
  ((Safe.hExtract hO n f x).keep h (Retains.refl h)).2 i hi

/-- C81. The same of instantiating. -/
theorem C81_instantiate_untouched {env : Env} {O : HOuter} (hO : O.Safe) (n : Nat) (f : Field) (x : HVal) (key : Option HVal) (h : Heap)
    (i : Nat) (hi : i < h.length) : ((hInstantiate env O n f x key).run h).2[i]? = h[i]? :=
  ((Safe.hInstantiate hO n f x key).keep h (Retains.refl h)).2 i hi

/-- C81. The same of interpolating, provided that the template engine changes no object. -/
theorem C81_interpolate_untouched {env : Env} {T : HTemplates} (hT : T.Safe) (n : Nat) (f : Field) (x : HVal) (h : Heap)
    (i : Nat) (hi : i < h.length) : ((hInterpolate env T n f x).run h).2[i]? = h[i]? :=
  ((Safe.hInterpolate hT n f x).keep h (Retains.refl h)).2 i hi

/-! ### The outcome is that on values, and which old objects it can share -/

/-- C81. On the heap, extracting gives what it gives on values, and the result consists of new objects and of objects
that the subject or the attributes of user objects consist of. -/
theorem C81_extract_refines {env : Env} {o : Outer} {O : HOuter} {strict : Bool} {params : Params} {n : Nat} {f : Field} {x : HVal} {v : Val}
    {h : Heap} {K : Nat → Prop} (hf : Everywhere env Declarable f) (hO : Describes o O K h) (hK : ∀ i, K i → i < h.length)
    (hv : RealKeys v) (hx : Depicts (part h K) x v) :
    Computes K (hExtract env o O strict params n f x) (extract env o strict params n f v) h :=
  HT.computes_iff.2 (HT.hExtract_serves hO n f hf K h x v (fun _ h => h) hK (Retains.refl h) hv hx)

/-- C81. The same of instantiating. -/
theorem C81_instantiate_refines {env : Env} {o : Outer} {O : HOuter} {n : Nat} {f : Field} {x : HVal} {v : Val}
    {h : Heap} {K : Nat → Prop} (hO : Describes o O K h) (hK : ∀ i, K i → i < h.length)
    (hv : RealKeys v) (hx : Depicts (part h K) x v) :
    Computes K (hInstantiate env O n f x none) (instantiate env o n f v none) h :=
  HT.computes_iff.2 (HT.hInstantiate_serves hO n f K h x v none none (fun _ h => h) hK (Retains.refl h) hv hx .none)

/-- C81. The same of interpolating, where `K` includes what the parameters consist of. -/
theorem C81_interpolate_refines {env : Env} {t : Templates} {T : HTemplates} {n : Nat} {f : Field} {x : HVal} {v : Val}
    {h : Heap} {K : Nat → Prop} (hf : Everywhere env Declarable f) (hT : DescribesT t T K h) (hK : ∀ i, K i → i < h.length)
    (hv : RealKeys v) (hx : Depicts (part h K) x v) :
    Computes K (hInterpolate env T n f x) (interpolate env t n f v) h :=
  HT.computes_iff.2 (HT.hInterpolate_serves hT n f hf K h x v (fun _ h => h) hK (Retains.refl h) hv hx)

/-! ### The containers of the result are its own -/

theorem Owns.cells {env : Env} {src leaf : HVal → HVal → Prop} {h h' : Heap} {f : Field} {x y : HVal}
    (ho : Owns env src leaf (part h' (h.length ≤ ·)) h.length h'.length f x y) :
    ∃ own, Copied env src leaf h'.cells f x y own ∧ own.Nodup ∧ ∀ i ∈ own, h.length ≤ i ∧ i < h'.length := by
  obtain ⟨own, hc, hn, hb⟩ := ho
  exact ⟨own, hc.mono (part_le_cells _ _), hn, hb⟩

/-- C81. Without extractors, the result of extracting is, along the schema, made of new containers, no one of which
occurs twice; a field without parts hands out the very object that was found, in the container or as an attribute. -/
theorem C81_extract_own {env : Env} {o : Outer} {O : HOuter} (hO : O.Safe) {strict : Bool} {params : Params} {n : Nat} {f : Field}
    (hf : Everywhere env NoExtractor f) {x y : HVal} {h h' : Heap} (hr : (hExtract env o O strict params n f x).run h = (.ok y, h')) :
    ∃ own, Copied env (fun x y => Inner h x y ∨ Attribute O x y) Eq h'.cells f x y own ∧ own.Nodup ∧
      ∀ i ∈ own, h.length ≤ i ∧ i < h'.length :=
  (hExtract_owns hO n f hf h x y h' (Retains.refl h) hr).cells

/-- C81. The same of instantiating without instantiators. -/
theorem C81_instantiate_own {env : Env} {O : HOuter} (hO : O.Safe) {n : Nat} {f : Field} (hf : Everywhere env NoInstantiator f)
    {x y : HVal} {key : Option HVal} {h h' : Heap} (hr : (hInstantiate env O n f x key).run h = (.ok y, h')) :
    ∃ own, Copied env (Inner h) Eq h'.cells f x y own ∧ own.Nodup ∧ ∀ i ∈ own, h.length ≤ i ∧ i < h'.length :=
  (hInstantiate_owns hO n f hf key h x y h' (Retains.refl h) hr).cells

/-- C81. The result of interpolating, too, is made of its own containers along the schema, even where a whole container
comes from a parameter; only what a field without parts returns may be an object of the parameters. -/
theorem C81_interpolate_own {env : Env} {T : HTemplates} (hT : T.Safe) {n : Nat} {f : Field} {x y : HVal} {h h' : Heap}
    (hr : (hInterpolate env T n f x).run h = (.ok y, h')) :
    ∃ own, Copied env (fun _ _ => True) (fun _ _ => True) h'.cells f x y own ∧ own.Nodup ∧ ∀ i ∈ own, h.length ≤ i ∧ i < h'.length :=
  (hInterpolate_owns hT n f h x y h' (Retains.refl h) hr).cells

/-- C81. The containers of the results of two calls are different ones. -/
theorem C81_results_apart {env : Env} {o : Outer} {O : HOuter} (hO : O.Safe) {strict : Bool} {params : Params} {n n' : Nat} {f g : Field}
    (hf : Everywhere env NoExtractor f) (hg : Everywhere env NoExtractor g) {x y x' y' : HVal} {h h₁ h₂ h₃ : Heap}
    (hr : (hExtract env o O strict params n f x).run h = (.ok y, h₁)) (hk : Retains h₁ h₂)
    (hr' : (hExtract env o O strict params n' g x').run h₂ = (.ok y', h₃)) :
    ∃ own own', Copied env (fun x y => Inner h x y ∨ Attribute O x y) Eq h₁.cells f x y own ∧
      Copied env (fun x y => Inner h₂ x y ∨ Attribute O x y) Eq h₃.cells g x' y' own' ∧ ∀ i ∈ own, i ∉ own' := by
  obtain ⟨own, hc, _, hb⟩ := C81_extract_own hO hf hr
  obtain ⟨own', hc', _, hb'⟩ := C81_extract_own hO hg hr'
  refine ⟨own, own', hc, hc', fun i hi hi' => ?_⟩
  have h1 := (hb i hi).2
  have h2 := (hb' i hi').1
  exact absurd (Nat.lt_of_lt_of_le h1 hk.1) (Nat.not_lt.2 h2)

/-- C81. Whatever is done to containers made by extracting, the subject stays what it was. -/
theorem C81_subject_independent {env : Env} {o : Outer} {O : HOuter} (hO : O.Safe) {strict : Bool} {params : Params} {n : Nat} {f : Field}
    {x z : HVal} {v : Val} {h h'' : Heap} (hz : Depicts h.cells z v)
    (hlater : ∀ i, i < h.length → h''[i]? = ((hExtract env o O strict params n f x).run h).2[i]?) : Depicts h''.cells z v := by
  refine hz.mono fun i c hi => ?_
  have hlt := getElem?_lt hi
  exact ((hlater i hlt).trans (C81_extract_untouched hO strict params n f x h i hlt)).trans hi

/-! ### What is shared -/

/-- C81. A field without parts hands out the subject itself, container or not. -/
theorem C81_extract_leaf {env : Env} {o : Outer} {O : HOuter} (strict : Bool) {params : Params} (n : Nat) {c : Common} {k : Leaf}
    (hc : c.extor = none) (hp : excluded o (.leaf c k) params = false) (x : HVal) (h : Heap) :
    (hExtract env o O strict params (n + 1) (.leaf c k) x).run h = (.ok x, h) := by
  have ha : ∀ x, (hApplyExtractor O (.leaf c k) x).run h = (.ok x, h) := by
    intro x
    unfold hApplyExtractor hExtractor Field.common?
    dsimp only [Option.bind]
    rw [hc]
    rfl
  have hb : ∀ x, (hUnlessNone x (hApplyExtractor O (.leaf c k) x >>= fun y =>
      hExtractBody env O strict (hExtract env o O strict params n) (.leaf c k) y)).run h = (.ok x, h) := by
    intro x
    unfold hUnlessNone
    split
    · rfl
    · rw [hm_ok (ha _)]; rfl
  show (if excluded o (.leaf c k) params then HM.raise .excluded else hUnlessNone x _ : HM HVal).run h = _
  rw [hp]
  exact hb x

namespace Ex

/-- No user function does anything. -/
def houter : HOuter := { ext := fun _ _ _ => raise (.py .typeError), inst := fun _ _ _ _ => raise (.py .typeError), getattr := fun _ _ => raise (.py .attributeError) }

/-- The same on values. -/
def vouter : Outer := { attr := fun _ _ => none, ext := fun _ _ _ => .error (.py .typeError), inst := fun _ _ _ _ => .error (.py .typeError), getattr := fun _ _ => .error .attributeError }

/-- An empty list, and a list in which it occurs twice. -/
def twice : Heap := [.list [], .list [.ref 0, .ref 0]]

/-- An untyped field, and a sequence of them. -/
def any : Field := .leaf {} .any
def anys : Field := .sequence {} any none none false

/-- A template engine in which every name refers to the list at 0. -/
def htemplates : HTemplates := { evaluate := fun _ => return .ref 0, render := fun _ => raise (.py .valueError), surrogate := fun _ => raise (.py .valueError) }

end Ex

theorem raise_alone {α : Type} (e : Exn) : LeavesAlone (HM.raise e : HM α) := Safe.alone fun _ => .raise _

/-- The hypotheses on the surroundings can be met. -/
theorem houter_safe : Ex.houter.Safe := ⟨fun _ _ _ => raise_alone _, fun _ _ _ _ => raise_alone _, fun _ _ => raise_alone _⟩

theorem htemplates_safe : Ex.htemplates.Safe := ⟨fun _ => Safe.alone fun _ => .pure _, fun _ => raise_alone _, fun _ => raise_alone _⟩

theorem computes_error {K : Nat → Prop} {h : Heap} {e : Exn} : Computes K (HM.raise e) (.error e) h := ⟨⟨Nat.le_refl _, fun _ _ => rfl⟩, rfl⟩

theorem vouter_describes {K : Nat → Prop} {h : Heap} : Describes Ex.vouter Ex.houter K h :=
  ⟨fun _ _ _ _ _ _ _ _ _ _ _ => computes_error, fun _ _ _ _ _ _ _ _ _ _ _ _ _ => computes_error, fun _ _ _ _ _ _ _ _ _ _ => computes_error,
    (fun _ _ _ _ h => by cases h), (fun _ _ _ h => by cases h)⟩

theorem anys_everywhere {P : Field → Prop} (h1 : P Ex.anys) (h2 : P Ex.any) : Everywhere Ex.env P Ex.anys := by
  refine .mk' h1 fun g hg => ?_
  cases hg with
  | item hr => cases hr; exact .mk' h2 fun g hg => nomatch hg

/-- C81. A container that a field without parts hands out is shared with the subject: extracting `[x, x]`, with `x` an empty
list, by `Sequence(Field())` gives a new list whose items are `x` itself, and appending to the first item of the result
changes both items of it and both items of the subject. -/
theorem C81_extract_shares : ∃ h h' : Heap,
    (hExtract Ex.env Ex.vouter Ex.houter true [] 2 Ex.anys (.ref 1)).run Ex.twice = (.ok (.ref 2), h) ∧
    Depicts h.cells (.ref 2) (.list [.list [], .list []]) ∧
    h[2]? = some (.list [.ref 0, .ref 0]) ∧ (appendTo 0 (.atom (.int 7))).run h = (.ok (), h') ∧
    Depicts h'.cells (.ref 2) (.list [.list [.int 7], .list [.int 7]]) ∧ Depicts h'.cells (.ref 1) (.list [.list [.int 7], .list [.int 7]]) :=
  ⟨_, _, rfl, .list rfl (.cons (.list rfl .nil) (.cons (.list rfl .nil) .nil)), rfl, rfl,
    .list rfl (.cons (.list rfl (.cons (.atom rfl) .nil)) (.cons (.list rfl (.cons (.atom rfl) .nil)) .nil)),
    .list rfl (.cons (.list rfl (.cons (.atom rfl) .nil)) (.cons (.list rfl (.cons (.atom rfl) .nil)) .nil))⟩

/-- C81. With `Sequence(Sequence(Field()))` the two items become different lists: appending to the first item of the
result changes neither its second item nor the subject. -/
theorem C81_extract_separates : ∃ h h' : Heap,
    (hExtract Ex.env Ex.vouter Ex.houter true [] 3 (.sequence {} Ex.anys none none false) (.ref 1)).run Ex.twice = (.ok (.ref 2), h) ∧
    h[2]? = some (.list [.ref 3, .ref 4]) ∧ (appendTo 3 (.atom (.int 7))).run h = (.ok (), h') ∧
    Depicts h'.cells (.ref 2) (.list [.list [.int 7], .list []]) ∧ Depicts h'.cells (.ref 1) (.list [.list [], .list []]) :=
  ⟨_, _, rfl, rfl, rfl, .list rfl (.cons (.list rfl (.cons (.atom rfl) .nil)) (.cons (.list rfl .nil) .nil)),
    .list rfl (.cons (.list rfl .nil) (.cons (.list rfl .nil) .nil))⟩

/-- C81. An untyped field interpolated from `${p}` returns the parameter object itself, so that changing the result changes
the caller's parameters; a sequence returns a new list. -/
theorem C81_interpolate_shares :
    (hInterpolate Ex.env Ex.htemplates 1 Ex.any (.atom (.str c!"${p}"))).run Ex.twice = (.ok (.ref 0), Ex.twice) ∧
    (hInterpolate Ex.env Ex.htemplates 1 Ex.anys (.atom (.str c!"${p}"))).run Ex.twice = (.ok (.ref 2), Ex.twice ++ [.list []]) :=
  ⟨rfl, rfl⟩

/-- The hypotheses of the refinement theorem, met by the subject `[[], []]` that holds one list twice. -/
example : Computes (· < 2) (hExtract Ex.env Ex.vouter Ex.houter true [] 2 Ex.anys (.ref 1))
    (extract Ex.env Ex.vouter true [] 2 Ex.anys (.list [.list [], .list []])) Ex.twice ∧
    extract Ex.env Ex.vouter true [] 2 Ex.anys (.list [.list [], .list []]) = .ok (.list [.list [], .list []]) := by
  refine ⟨C81_extract_refines (anys_everywhere ⟨trivial, fun _ _ _ _ _ h => nomatch h⟩ ⟨trivial, fun _ _ _ _ _ h => nomatch h⟩)
    vouter_describes (fun _ h => h) ?_ ?_, rfl⟩
  · exact .list fun v hv => by
      simp only [List.mem_cons, List.not_mem_nil, or_false, or_self] at hv
      subst hv
      exact .list fun _ h => nomatch h
  · have h0 : Depicts (part Ex.twice (· < 2)) (.ref 0) (.list []) := .list (part_some.2 ⟨by decide, rfl⟩) .nil
    exact .list (part_some.2 ⟨by decide, rfl⟩) (.cons h0 (.cons h0 .nil))

/-- The containers of the result, in the same case. -/
example : ∃ own, Copied Ex.env (fun x y => Inner Ex.twice x y ∨ Attribute Ex.houter x y) Eq
    (Ex.twice ++ [Cell.list [.ref 0, .ref 0]] : Heap).cells Ex.anys (.ref 1) (.ref 2) own ∧ own.Nodup ∧
    ∀ i ∈ own, Ex.twice.length ≤ i ∧ i < 3 :=
  C81_extract_own (o := Ex.vouter) (strict := true) (params := []) (n := 2) houter_safe
    (anys_everywhere (fun c hc => by cases hc; rfl) (fun c hc => by cases hc; rfl)) rfl

/-- Instantiation of the same. -/
example : ∃ own, Copied Ex.env (Inner Ex.twice) Eq (Ex.twice ++ [Cell.list [.ref 0, .ref 0]] : Heap).cells Ex.anys (.ref 1) (.ref 2) own ∧ own.Nodup ∧
    ∀ i ∈ own, Ex.twice.length ≤ i ∧ i < 3 :=
  C81_instantiate_own (O := Ex.houter) (n := 2) (key := none) houter_safe
    (anys_everywhere (fun c hc => by cases hc; rfl) (fun c hc => by cases hc; rfl)) rfl

/-- The template engine whose names all refer to the list at 0 is described by one whose names all evaluate to `[]`. -/
example : DescribesT { evaluate := fun _ => .ok (.list []), render := fun _ => .error (.py .valueError), surrogate := fun _ => .error (.py .valueError) }
    Ex.htemplates (· < 2) Ex.twice := by
  refine ⟨fun s K h hK _ hk => ?_, fun _ _ _ _ _ _ => computes_error, fun _ _ _ _ _ _ _ _ => computes_error, fun s w h => ?_⟩
  · exact ⟨⟨Nat.le_refl _, fun _ _ => rfl⟩, .list (part_some.2 ⟨.inl (hK 0 (by decide)), hk.2 0 (by decide)⟩) .nil⟩
  · cases h; exact .list fun _ h => nomatch h

end Scheme
