import Verif.Lemmas.StructBody
import Verif.Spec.Examples

/-! C05, C06, C07 (structures). -/

namespace Scheme

/-- The order in which a structure visits its keys: `key_order`, or declaration order. -/
def visitOrder (defn : List (Str × Field)) : List Str → List Str
  | [] => defn.map (·.1)
  | k :: r => k :: r

theorem visitOrder_eq (defn : List (Str × Field)) (ko : List Str) :
    (if ko.isEmpty then defn.map (·.1) else ko) = visitOrder defn ko := by cases ko <;> rfl

/-- C05. Exactly when, and with what result, a structure accepts a dict: in strict mode every key is
declared; each member has no required-but-missing problem and its slot of the result is empty if it has no
input (see `memberInput`: the given value unless a null to be ignored, else inbound the default), or
else holds what processing the input gives; the result lists the filled slots, in visiting order, and
nothing else. -/
theorem C05_structure_accepts_iff (env : Env) (n : Nat) (c : Common) (defn : List (Str × Field))
    (strict : Bool) (ko : List Str) (hpre : c.pre = none)
    (hnd : (visitOrder defn ko).Nodup)
    (hdecl : ∀ name ∈ visitOrder defn ko, ∃ g cm, Declares env defn name g cm)
    (d : List (Val × Val)) (w : Val) (ph : Phase) (ser : Bool) (anc : List Str) (ha : anc ≠ []) :
    process env (n + 1) (.structure c defn strict ko) (.dict d) ph ser anc = .ok w ↔
      (strict = true → ∀ e ∈ d, ∃ name ∈ visitOrder defn ko, e.1 = .str name) ∧
      ∃ slots : List (Str × Option Val), slots.map (·.1) = visitOrder defn ko ∧
        (∀ x ∈ slots, SlotOk env n defn d ph ser false anc x.1 x.2) ∧
        w = .dict (slotDict slots) := by
  show processStructure env (process env n) c defn strict ko false (.dict d) ph ser anc = .ok w ↔ _
  rw [processStructure_dict hpre ha, visitOrder_eq]
  exact structBody_ok_iff _ _ _ _ _ _ _ _ _ _ _ hnd hdecl _

/-- C05. The keys of an accepted result, spelled out. -/
theorem C05_key_set (env : Env) (n : Nat) (c : Common) (defn : List (Str × Field))
    (strict : Bool) (hpre : c.pre = none) (hnd : (defn.map (·.1)).Nodup)
    (hdecl : ∀ name ∈ defn.map (·.1), ∃ g cm, Declares env defn name g cm)
    (d out : List (Val × Val)) (ph : Phase) (ser : Bool) (anc : List Str) (ha : anc ≠ [])
    (h : process env (n + 1) (.structure c defn strict []) (.dict d) ph ser anc = .ok (.dict out))
    (k : Val) :
    (∃ e ∈ out, e.1 = k) ↔ ∃ name g cm, k = .str name ∧ Declares env defn name g cm ∧
      ((∃ v, given d name = some v ∧ ¬(cm.ignoreNull = true ∧ v = .none)) ∨
       (given d name = none ∧ ph = .inbound ∧ cm.default ≠ .none)) := by
  rw [C05_structure_accepts_iff env n c defn strict [] hpre hnd hdecl d _ ph ser anc ha] at h
  obtain ⟨-, slots, hs1, hs2, hout⟩ := h
  cases hout
  have hinput : ∀ name (cm : Common), (∃ v, memberInput cm (given d name) ph false = some v) ↔
      ((∃ v, given d name = some v ∧ ¬(cm.ignoreNull = true ∧ v = .none)) ∨
       (given d name = none ∧ ph = .inbound ∧ cm.default ≠ .none)) := by
    intro name cm
    cases hg : given d name with
    | some v =>
      rw [memberInput_given]
      by_cases hn : v = .none
      · subst hn; cases cm.ignoreNull <;> simp [Val.isNone]
      · have : v.isNone = false := by cases hv : v.isNone; rfl; exact absurd ((isNone_iff v).1 hv) hn
        simp [this, hn]
    | none =>
      rw [memberInput_absent]
      by_cases hn : cm.default = .none
      · simp [hn, Val.isNone]
      · have : cm.default.isNone = false := by
          cases hv : cm.default.isNone; rfl; exact absurd ((isNone_iff _).1 hv) hn
        cases ph <;> simp [this, hn]
  constructor
  · rintro ⟨e, he, rfl⟩
    simp only [slotDict, List.mem_filterMap, Option.map_eq_some_iff] at he
    obtain ⟨x, hx, v, hv, rfl⟩ := he
    obtain ⟨g, cm, hd, -, h⟩ := hs2 x hx
    rcases h with ⟨_, h⟩ | ⟨v, w, hi, hw, _⟩
    · rw [hv] at h; simp at h
    · exact ⟨x.1, g, cm, rfl, hd, (hinput _ _).1 ⟨v, hi⟩⟩
  · rintro ⟨name, g, cm, rfl, hd, h⟩
    obtain ⟨v, hi⟩ := (hinput name cm).2 h
    have hmem : name ∈ slots.map (·.1) := by
      rw [hs1]
      obtain ⟨f, hf, _⟩ := hd
      show name ∈ defn.map (·.1)
      have := List.lookup_eq_some_iff.1 hf
      obtain ⟨l1, l2, rfl, _⟩ := this
      simp
    obtain ⟨x, hx, rfl⟩ := List.mem_map.1 hmem
    obtain ⟨g', cm', hd', -, h'⟩ := hs2 x hx
    obtain ⟨rfl, rfl⟩ := hd.unique hd'
    rcases h' with ⟨h', _⟩ | ⟨v', w, hi', hw, _⟩
    · rw [hi] at h'; simp at h'
    · refine ⟨(.str x.1, w), ?_, rfl⟩
      simp only [slotDict, List.mem_filterMap, Option.map_eq_some_iff]
      exact ⟨x, hx, w, hw, rfl⟩

/-- A structure with a required, a defaulted and a null-ignoring member. -/
def exStruct : Field := .structure {} [
  (c!"a", .leaf { name := some c!"a", required := true } (.integer none none)),
  (c!"b", .leaf { name := some c!"b", default := .int 7 } (.integer none none)),
  (c!"c", .leaf { name := some c!"c", ignoreNull := true } (.integer none none))] true []

example : process Ex.env 2 exStruct (.dict [(.str c!"c", .none), (.str c!"a", .int 1)]) .inbound false [c!"s"] =
    .ok (.dict [(.str c!"a", .int 1), (.str c!"b", .int 7)]) := rfl

example : process Ex.env 2 exStruct (.dict [(.str c!"c", .none), (.str c!"a", .int 1)]) .outbound false [c!"s"] =
    .ok (.dict [(.str c!"a", .int 1)]) := rfl

/-- C05, deviation: a required member that ignores nulls may be dropped from an accepted result. -/
theorem C05_required_key_dropped_counterexample :
    process Ex.env 2 (.structure {} [(c!"a", .leaf { required := true, ignoreNull := true } (.integer none none))]
      true []) (.dict [(.str c!"a", .none)]) .inbound false [c!"s"] = .ok (.dict []) := rfl

/-- C07 for structures. If something is wrong with a dict, and all failures of members are structural
errors, then the error raised sits at the structure, has no entry of its own, and its structure holds,
for each member in visiting order, its processed value, its own error object, or a 'required' error
located at the structure, and then one 'unknown' error for each undeclared key in strict mode. -/
theorem C07_structure_report (env : Env) (n : Nat) (c : Common) (defn : List (Str × Field))
    (strict : Bool) (ko : List Str) (hpre : c.pre = none) (hp : plainErrors (.structure c defn strict ko))
    (hnd : (visitOrder defn ko).Nodup) (d : List (Val × Val))
    (hkeys : d.Pairwise fun a b => pyEq b.1 a.1 = false)
    (ph : Phase) (ser : Bool) (anc : List Str) (ha : anc ≠ [])
    (hslots : ∀ name ∈ visitOrder defn ko, ∃ g cm, Declares env defn name g cm ∧
      ∀ v, memberInput cm (given d name) ph false = some v →
        (∃ r, process env n g v ph ser (anc ++ ['.' :: name]) = .ok r) ∨
        ∃ e, process env n g v ph ser (anc ++ ['.' :: name]) = .error (.structural e))
    (hbad : (∃ name ∈ visitOrder defn ko, ∃ r, SlotBad env n defn d ph ser false anc name r) ∨
      (strict = true ∧ ∃ e ∈ d, ∀ name ∈ visitOrder defn ko, e.1 ≠ .str name)) :
    ∃ (slots : List (Str × Option Val)) (unk : List (Val × Val)), slots.map (·.1) = visitOrder defn ko ∧
      (∀ x ∈ slots, SlotOk env n defn d ph ser false anc x.1 x.2 ∨
        SlotBad env n defn d ph ser false anc x.1 x.2) ∧
      unk.map (·.1) =
        (if strict then (d.map (·.1)).filter (fun k => (visitOrder defn ko).all fun m => !pyEq (.str m) k) else []) ∧
      (∀ e ∈ unk, ∃ t m, e.2 = .exc .validation anc [errItem c!"unknown" t m] .none .none) ∧
      process env (n + 1) (.structure c defn strict ko) (.dict d) ph ser anc =
        .error (.structural ⟨.validation, anc, [], .dict (slotDict slots ++ unk), .dict d⟩) := by
  have h := structBody_report env n (.structure c defn strict ko) (.inl ⟨_, _, _, _, rfl⟩) hp strict
    (visitOrder defn ko) defn d ph ser false anc hnd hkeys hslots hbad
  obtain ⟨slots, unk, h1, h2, h3, h4, h5⟩ := h
  refine ⟨slots, unk, h1, h2, h3, h4, ?_⟩
  show processStructure env (process env n) c defn strict ko false (.dict d) ph ser anc = _
  rw [processStructure_dict hpre ha, visitOrder_eq]
  exact h5

/-- C06. With members that raise only structural errors, processing a dict either succeeds or raises a
ValidationError at the structure, and it raises iff some member with an input fails on it, or a
required member is missing, or strict mode meets an undeclared key. -/
theorem C06_structure_fails_iff (env : Env) (n : Nat) (c : Common) (defn : List (Str × Field))
    (strict : Bool) (ko : List Str) (hpre : c.pre = none) (hp : plainErrors (.structure c defn strict ko))
    (hnd : (visitOrder defn ko).Nodup) (d : List (Val × Val))
    (hkeys : d.Pairwise fun a b => pyEq b.1 a.1 = false)
    (ph : Phase) (ser : Bool) (anc : List Str) (ha : anc ≠ [])
    (hslots : ∀ name ∈ visitOrder defn ko, ∃ g cm, Declares env defn name g cm ∧
      ∀ v, memberInput cm (given d name) ph false = some v →
        (∃ r, process env n g v ph ser (anc ++ ['.' :: name]) = .ok r) ∨
        ∃ e, process env n g v ph ser (anc ++ ['.' :: name]) = .error (.structural e)) :
    ((∃ w, process env (n + 1) (.structure c defn strict ko) (.dict d) ph ser anc = .ok w) ∨
     ∃ st, process env (n + 1) (.structure c defn strict ko) (.dict d) ph ser anc =
        .error (.structural ⟨.validation, anc, [], st, .dict d⟩)) ∧
    ((∃ e, process env (n + 1) (.structure c defn strict ko) (.dict d) ph ser anc = .error e) ↔
      (∃ name ∈ visitOrder defn ko, ∃ g cm, Declares env defn name g cm ∧
        (memberMissing cm (given d name) ph false ∨
         ∃ v e, memberInput cm (given d name) ph false = some v ∧
          process env n g v ph ser (anc ++ ['.' :: name]) = .error (.structural e))) ∨
      (strict = true ∧ ∃ e ∈ d, ∀ name ∈ visitOrder defn ko, e.1 ≠ .str name)) := by
  by_cases hB : (∃ name ∈ visitOrder defn ko, ∃ g cm, Declares env defn name g cm ∧
        (memberMissing cm (given d name) ph false ∨
         ∃ v e, memberInput cm (given d name) ph false = some v ∧
          process env n g v ph ser (anc ++ ['.' :: name]) = .error (.structural e))) ∨
      (strict = true ∧ ∃ e ∈ d, ∀ name ∈ visitOrder defn ko, e.1 ≠ .str name)
  · have hbad : (∃ name ∈ visitOrder defn ko, ∃ r, SlotBad env n defn d ph ser false anc name r) ∨
      (strict = true ∧ ∃ e ∈ d, ∀ name ∈ visitOrder defn ko, e.1 ≠ .str name) := by
      rcases hB with ⟨name, hname, g, cm, hd, h⟩ | h
      · left
        refine ⟨name, hname, ?_⟩
        rcases h with h | ⟨v, e, hi, h⟩
        · exact ⟨_, g, cm, hd, .inl ⟨h, [], [], rfl⟩⟩
        · exact ⟨_, g, cm, hd, .inr ⟨v, e, hi, rfl, h⟩⟩
      · exact .inr h
    obtain ⟨slots, unk, -, -, -, -, h⟩ :=
      C07_structure_report env n c defn strict ko hpre hp hnd d hkeys ph ser anc ha hslots hbad
    exact ⟨.inr ⟨_, h⟩, ⟨fun _ => hB, fun _ => ⟨_, h⟩⟩⟩
  · have hdecl : ∀ name ∈ visitOrder defn ko, ∃ g cm, Declares env defn name g cm := fun name hname => by
      obtain ⟨g, cm, h, _⟩ := hslots name hname; exact ⟨g, cm, h⟩
    have hall : ∃ slots : List (Str × Option Val), slots.map (·.1) = visitOrder defn ko ∧
        ∀ x ∈ slots, SlotOk env n defn d ph ser false anc x.1 x.2 := by
      have : ∀ name ∈ visitOrder defn ko, ∃ r, SlotOk env n defn d ph ser false anc name r := by
        intro name hname
        obtain ⟨g, cm, hd, hout⟩ := hslots name hname
        have hm : ¬ memberMissing cm (given d name) ph false := fun hm =>
          hB (.inl ⟨name, hname, g, cm, hd, .inl hm⟩)
        cases hi : memberInput cm (given d name) ph false with
        | none => exact ⟨none, g, cm, hd, hm, .inl ⟨hi, rfl⟩⟩
        | some v =>
          rcases hout v hi with ⟨r, hr⟩ | ⟨e, he⟩
          · exact ⟨some r, g, cm, hd, hm, .inr ⟨v, r, hi, rfl, hr⟩⟩
          · exact absurd (.inl ⟨name, hname, g, cm, hd, .inr ⟨v, e, hi, he⟩⟩) hB
      clear hslots hdecl hB hnd
      revert this
      generalize visitOrder defn ko = order
      intro this
      induction order with
      | nil => exact ⟨[], rfl, by simp⟩
      | cons a r ih =>
        obtain ⟨slots, h1, h2⟩ := ih (fun m hm => this m (List.mem_cons_of_mem _ hm))
        obtain ⟨x, hx⟩ := this a (List.mem_cons_self ..)
        exact ⟨(a, x) :: slots, by simp [h1], by
          intro y hy
          rcases List.mem_cons.1 hy with rfl | hy
          · exact hx
          · exact h2 y hy⟩
    obtain ⟨slots, h1, h2⟩ := hall
    have hok := (C05_structure_accepts_iff env n c defn strict ko hpre hnd hdecl d (.dict (slotDict slots))
      ph ser anc ha).2 ⟨fun hs e he => by
        by_cases hx : ∃ name ∈ visitOrder defn ko, e.1 = .str name
        · exact hx
        · exact absurd (.inr ⟨hs, e, he, fun name hn hk => hx ⟨name, hn, hk⟩⟩) hB,
        slots, h1, h2, rfl⟩
    refine ⟨.inl ⟨_, hok⟩, ⟨?_, fun h => absurd h hB⟩⟩
    rintro ⟨e, he⟩
    rw [hok] at he; cases he

example : ∃ st, process Ex.env 2 exStruct (.dict [(.str c!"x", .int 1), (.str c!"b", .str c!"no")]) .inbound false [c!"s"]
    = .error (.structural ⟨.validation, [c!"s"], [], st, .dict [(.str c!"x", .int 1), (.str c!"b", .str c!"no")]⟩) :=
  ⟨_, rfl⟩

/-- Anything but a dict or null is a type error. -/
theorem C05_not_a_structure (env : Env) (n : Nat) (c : Common) (defn : List (Str × Field))
    (strict : Bool) (ko : List Str) (hp : plainErrors (.structure c defn strict ko)) (v : Val) (hv : v ≠ .none)
    (hl : ∀ d, v ≠ .dict d) (ph : Phase) (ser : Bool) (anc : List Str) (ha : anc ≠ []) :
    Raises (process env (n + 1) (.structure c defn strict ko) v ph ser anc) .invalidType anc v c!"invalid" := by
  show Raises (processStructure env (process env n) c defn strict ko false v ph ser anc) _ _ _ _
  have hn : isNull (.structure c defn strict ko) v anc = .ok false := isNull_nonEnum rfl (by simp) hv
  unfold processStructure
  simp only [ancOr_ne ha, hn, except_bind_ok]
  cases v <;> first | exact absurd rfl (hl _) | exact mkErr_class _ _ _ _ _ _ hp ⟨_, rfl, rfl⟩

end Scheme
