import Verif.Spec.ErrTree
import Verif.Props.Locations

/-! C45: serialization of structural errors. -/

namespace Scheme

theorem serErr_eq (x : Val) : serErr x = reported x := by
  cases x <;> rfl

theorem serErrs_eq (l : List Val) : serErrs l = l.map reported := by
  unfold serErrs
  exact List.map_congr_left fun x _ => serErr_eq x

theorem serStructL_eq (l : List Val) : serStructL l = l.map fun v => (serItem v).getD .none := by
  induction l with
  | nil => rw [serStructL]; rfl
  | cons v r ih => rw [serStructL, ih]; rfl

theorem serStructD_eq (d : List (Val × Val)) : serStructD d = d.filterMap fun e => (serItem e.2).map (e.1, ·) := by
  induction d with
  | nil => rw [serStructD]; rfl
  | cons e r ih =>
    obtain ⟨k, v⟩ := e
    rw [serStructD, List.filterMap_cons]
    cases serItem v <;> simp [ih]

theorem serItem_isSome (v : Val) : (serItem v).isSome = v.isExc := by
  cases v <;> rw [serItem] <;> simp [Val.isExc]

theorem serStructD_keys (d : List (Val × Val)) : (serStructD d).map (·.1) = (d.filter fun e => e.2.isExc).map (·.1) := by
  rw [serStructD_eq]
  induction d with
  | nil => rfl
  | cons e r ih =>
    have := serItem_isSome e.2
    cases h : serItem e.2 with
    | none => rw [h] at this; simp only [Option.isSome_none] at this; simp [h, ← this, ih]
    | some x => rw [h] at this; simp only [Option.isSome_some] at this; simp [h, ← this, ih]

theorem serItem_shows (c : Val) : Shows c ((serItem c).getD .none) := by
  cases hc : c.isExc with
  | false =>
    have := serItem_isSome c
    rw [hc] at this
    cases h : serItem c with
    | none => exact .fine hc
    | some x => rw [h] at this; cases this
  | true =>
    cases c with
    | exc cls i es st v =>
      rw [serItem]
      cases st with
      | none => simp only [Val.isNone, if_true, Option.getD_some, serErrs_eq]; exact .errors
      | list l =>
        simp only [Val.isNone, Bool.false_eq_true, if_false, Option.getD_some]
        rw [serStruct, serStructL_eq]
        exact .list (by simp)
      | dict d =>
        simp only [Val.isNone, Bool.false_eq_true, if_false, Option.getD_some]
        rw [serStruct]
        exact .dict (serStructD_keys d)
      | _ =>
        simp only [Val.isNone, Bool.false_eq_true, if_false, Option.getD_some]
        rw [serStruct]
        · exact .other (by simp) (by simp) (by simp)
        · simp
        · simp
    | _ => cases hc

/-- The entry a serialized structure has for a child. -/
theorem serStruct_child {st : Val} {s : EStep} {c : Val} (h : ErrChild st s c) :
    (∃ i, s = .idx i ∧ ErrChild (serStruct st) s ((serItem c).getD .none)) ∨
    (∃ k, s = .key k ∧ ∀ x, serItem c = some x → ErrChild (serStruct st) s x) := by
  cases h with
  | idx h =>
    refine .inl ⟨_, rfl, ?_⟩
    rw [serStruct, serStructL_eq]
    exact .idx (by rw [List.getElem?_map, h]; rfl)
  | @key d k c h =>
    refine .inr ⟨_, rfl, fun x hx => ?_⟩
    rw [serStruct, serStructD_eq]
    exact .key (List.mem_filterMap.2 ⟨_, h, by simp [hx]⟩)

/-- C45: at every path of the error tree the serialized structure shows that node: the errors of an error without
structure, a list with as many entries or a dict with exactly the keys of the failing children for an error with one.
Children that are fine are shown as None in a list and not at all in a dict. -/
theorem C45_mirror (st : Val) (p : List EStep) (c : Val) (h : NodeAt st p c) :
    (c.isExc = true ∨ ∃ q i, p = q ++ [.idx i]) → ∃ w, OutAt (serStruct st) p w ∧ Shows c w := by
  induction h with
  | @last st s c hc =>
    intro hp
    refine ⟨(serItem c).getD .none, .step ?_ .here, serItem_shows c⟩
    rcases serStruct_child hc with ⟨i, rfl, h⟩ | ⟨k, rfl, h⟩
    · exact h
    · rcases hp with hp | ⟨q, i, hp⟩
      · rw [← serItem_isSome] at hp
        obtain ⟨x, hx⟩ := Option.isSome_iff_exists.1 hp
        rw [hx]; exact h x hx
      · cases q with
        | nil => cases hp
        | cons a q => cases q <;> cases hp
  | @step st s cls i es st' v p c hc hn hrest ih =>
    intro hp
    obtain ⟨w, hw, hs⟩ := ih (by
      rcases hp with hp | ⟨q, i, hp⟩
      · exact .inl hp
      · cases q with
        | nil =>
          injection hp with h1 h2; subst h2
          cases hrest
        | cons a q => injection hp with h1 h2; exact .inr ⟨q, i, h2⟩)
    refine ⟨w, .step ?_ hw, hs⟩
    have hx : serItem (.exc cls i es st' v) = some (serStruct st') := by
      rw [serItem]; cases st' <;> first | exact (hn rfl).elim | rfl
    rcases serStruct_child hc with ⟨i, rfl, h⟩ | ⟨k, rfl, h⟩
    · rw [hx] at h; exact h
    · exact h _ hx

/-- C45: the pair: own errors (None when there are none) and the structure (None when empty). -/
theorem C45_pair (es : List Val) (st : Val) :
    ∃ a b, serializeErr es st = .tuple [a, b] ∧
      (es = [] → a = .none) ∧ (es ≠ [] → a = .list (es.map reported)) ∧
      (st.truthy = false → b = .none) ∧
      (∀ l, st = .list l → l ≠ [] → ∃ m, b = .list m ∧ m.length = l.length) ∧
      (∀ d, st = .dict d → d ≠ [] → ∃ m, b = .dict m ∧ m.map (·.1) = (d.filter fun e => e.2.isExc).map (·.1)) ∧
      (st.truthy = true → b = serStruct st) := by
  refine ⟨_, _, rfl, ?_, ?_, ?_, ?_, ?_, ?_⟩
  · rintro rfl; rfl
  · intro h; rw [serErrs_eq]; cases es <;> simp_all
  · intro h; simp [h]
  · rintro l rfl h
    cases l with
    | nil => exact (h rfl).elim
    | cons a l => exact ⟨_, by simp only [Val.truthy, List.isEmpty_cons, Bool.not_false, if_true]; rw [serStruct], by rw [serStructL_eq]; simp⟩
  · rintro d rfl h
    cases d with
    | nil => exact (h rfl).elim
    | cons a d => exact ⟨_, by simp only [Val.truthy, List.isEmpty_cons, Bool.not_false, if_true]; rw [serStruct], serStructD_keys _⟩
  · intro h; simp [h]

/-! ### Caching -/

theorem after_append (o : ErrObj) (a b : List ErrOp) : o.after (a ++ b) = (o.after a).after b := by
  induction a generalizing o with
  | nil => rfl
  | cons x a ih => exact ih _

theorem run_attrs (o : ErrObj) (op : ErrOp) :
    (op.run o).1.errors = o.errors ++ added op ∧ (op.run o).1.struct = (attached op).getD o.struct := by
  cases op with
  | serialize f =>
    simp only [ErrOp.run]
    split <;> simp [added, attached]
  | _ => simp [ErrOp.run, added, attached]

/-- The attributes of an error do not depend on when it was serialized. -/
theorem C45_attributes (o : ErrObj) (h : List ErrOp) :
    (o.after h).errors = errorsAfter o.errors h ∧ (o.after h).struct = structAfter o.struct h := by
  induction h generalizing o with
  | nil => simp [ErrObj.after, errorsAfter, structAfter]
  | cons op h ih =>
    obtain ⟨h1, h2⟩ := run_attrs o op
    obtain ⟨h3, h4⟩ := ih (op.run o).1
    refine ⟨?_, ?_⟩
    · rw [ErrObj.after, h3, h1]; simp [errorsAfter]
    · rw [ErrObj.after, h4, h2]
      unfold structAfter
      rw [List.filterMap_cons]
      cases ha : attached op with
      | none => rfl
      | some st =>
        simp only [Option.getD_some]
        cases hl : (h.filterMap attached).getLast? with
        | none =>
          rw [List.getLast?_eq_none_iff] at hl; rw [hl]; rfl
        | some x => rw [List.getLast?_cons, hl]; rfl

/-- C45: a forced call serializes the current errors and structure. -/
theorem C45_forced (o : ErrObj) (h : List ErrOp) :
    ((ErrOp.serialize true).run (o.after h)).2 = some (serializeErr (errorsAfter o.errors h) (structAfter o.struct h)) := by
  obtain ⟨h1, h2⟩ := C45_attributes o h
  rw [← h1, ← h2]
  simp only [ErrOp.run]

theorem cache_kept {o : ErrObj} {h : List ErrOp} {r : Val} (hc : o.cache = some r) (hh : .serialize true ∉ h) :
    (o.after h).cache = some r := by
  induction h generalizing o with
  | nil => exact hc
  | cons op h ih =>
    refine ih ?_ (fun hm => hh (List.mem_cons_of_mem _ hm))
    cases op with
    | serialize f =>
      cases f with
      | true => exact (hh (List.mem_cons_self ..)).elim
      | false => simp [ErrOp.run, hc]
    | _ => exact hc

theorem cache_empty {o : ErrObj} {h : List ErrOp} (hc : o.cache = none) (hh : ∀ f, .serialize f ∉ h) :
    (o.after h).cache = none := by
  induction h generalizing o with
  | nil => exact hc
  | cons op h ih =>
    refine ih ?_ (fun f hm => hh f (List.mem_cons_of_mem _ hm))
    cases op with
    | serialize f => exact (hh f (List.mem_cons_self ..)).elim
    | _ => exact hc

/-- C45: so does the first call. -/
theorem C45_first (o : ErrObj) (hc : o.cache = none) (h : List ErrOp) (hh : ∀ f, .serialize f ∉ h) :
    ((ErrOp.serialize false).run (o.after h)).2 =
      some (serializeErr (errorsAfter o.errors h) (structAfter o.struct h)) := by
  obtain ⟨h1, h2⟩ := C45_attributes o h
  rw [← h1, ← h2]
  simp only [ErrOp.run, cache_empty hc hh]

/-- C45: an unforced call returns what the latest forced call returned, or the first call if none was forced since;
errors added and structures attached in between are not shown. -/
theorem C45_cached (o : ErrObj) (hc : o.cache = none) (a b : List ErrOp) (f : Bool) (hf : f = true ∨ ∀ f, .serialize f ∉ a)
    (hb : .serialize true ∉ b) :
    ((ErrOp.serialize false).run (o.after (a ++ .serialize f :: b))).2 =
      some (serializeErr (errorsAfter o.errors a) (structAfter o.struct a)) := by
  obtain ⟨h1, h2⟩ := C45_attributes o a
  rw [after_append]
  have : (((ErrOp.serialize f).run (o.after a)).1).cache =
      some (serializeErr (errorsAfter o.errors a) (structAfter o.struct a)) := by
    rw [← h1, ← h2]
    cases f with
    | true => rfl
    | false =>
      rcases hf with hf | hf
      · cases hf
      · simp only [ErrOp.run, cache_empty hc hf]
  have := cache_kept (h := b) this hb
  have run : ∀ (o : ErrObj) r, o.cache = some r → ((ErrOp.serialize false).run o).2 = some r := by
    intro o r h; simp only [ErrOp.run, h]
  exact run _ _ this

/-- Every history with a call falls under `C45_cached`. -/
theorem C45_cached_total (h : List ErrOp) (hh : ∃ f, .serialize f ∈ h) :
    ∃ a f b, h = a ++ .serialize f :: b ∧ (f = true ∨ ∀ f, .serialize f ∉ a) ∧ .serialize true ∉ b := by
  suffices H : (∀ f, .serialize f ∉ h) ∨ ∃ a f b, h = a ++ .serialize f :: b ∧ (f = true ∨ ∀ f, .serialize f ∉ a) ∧ .serialize true ∉ b by
    rcases H with H | H
    · obtain ⟨f, hf⟩ := hh; exact (H f hf).elim
    · exact H
  clear hh
  induction h with
  | nil => left; simp
  | cons op h ih =>
    rcases ih with ih | ⟨a, f, b, rfl, hf, hb⟩
    · cases op with
      | serialize f => exact .inr ⟨[], f, h, rfl, .inr (by simp), ih true⟩
      | _ => left; intro f hm; rcases List.mem_cons.1 hm with hm | hm; · cases hm
             exact ih f hm
    · right
      cases f with
      | true => exact ⟨op :: a, true, b, rfl, .inl rfl, hb⟩
      | false =>
        have hf : ∀ f, .serialize f ∉ a := by rcases hf with hf | hf; · cases hf
                                              exact hf
        cases op with
        | serialize f =>
          refine ⟨[], f, a ++ .serialize false :: b, rfl, .inr (by simp), ?_⟩
          simp [hf true, hb]
        | _ =>
          refine ⟨_ :: a, false, b, rfl, .inr ?_, hb⟩
          intro f hm; rcases List.mem_cons.1 hm with hm | hm
          · cases hm
          · exact hf f hm

/-- An error that was already serialized hides what is appended later. -/
example : ((ErrOp.serialize false).run (({ errors := [], struct := .none } : ErrObj).after
    [.append (.str c!"a"), .serialize false, .append (.str c!"b")])).2 =
      some (serializeErr [.str c!"a"] .none) :=
  C45_cached _ rfl [.append (.str c!"a")] [.append (.str c!"b")] false (by simp) (by simp)

/-! ### Errors and structure together -/

/-- A nested error with a structure loses its own errors. -/
theorem C45_nested_errors_lost (cls : ErrCls) (i : List Str) (es : List Val) (l : List Val) (v : Val) :
    serStruct (.list [.exc cls i es (.list l) v]) = serStruct (.list [.exc cls i [] (.list l) v]) := by
  simp [serStruct, serStructL, serItem, Val.isNone]

/-- A good value that happens to be an error object is shown like a failure. -/
theorem C45_error_value :
    ∃ e, process Ex.env 5 (.tuple {} [.leaf {} .error, .leaf {} (.integer none none)])
        (.list [.exc .structural [] [.str c!"fine"] .none .none, .str c!"x"]) .inbound false [] = .error (.structural e) ∧
      ∃ y, serializeErr e.errors e.struct = .tuple [.none, .list [.list [.dict [(.str c!"message", .str c!"fine")]], y]] := by
  refine ⟨_, rfl, ?_⟩
  exact ⟨_, rfl⟩

/-! ### unserialize -/

/-- C45: an error without structure survives unserialize; any other cannot be unserialized, because its
errors are None. -/
theorem C45_unserialize (es : List Val) (hes : es ≠ []) :
    ∃ errs st, serializeErr es .none = .tuple [errs, st] ∧
      ∃ i es' v, unserializeErr errs st = .ok (.exc .structural i es' .none v) ∧
        serializeErr es' .none = serializeErr es .none := by
  refine ⟨.list (serErrs es), .none, ?_, _, _, _, rfl, ?_⟩
  · cases es with
    | nil => exact (hes rfl).elim
    | cons a r => rfl
  · have : ∀ x, serErr (serErr x) = serErr x := by intro x; cases x <;> rfl
    have h2 : serErrs (serErrs es) = serErrs es := by simp [serErrs, this]
    cases es with
    | nil => exact (hes rfl).elim
    | cons a r => simp only [serializeErr, h2]; rfl

theorem C45_unserialize_structural (st : Val) :
    ∃ errs s, serializeErr [] st = .tuple [errs, s] ∧ unserializeErr errs s = .error .typeError := ⟨_, _, rfl, rfl⟩

end Scheme
