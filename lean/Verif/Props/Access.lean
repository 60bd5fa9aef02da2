import Verif.Model.Access
import Verif.Props.Structure
import Verif.Props.Edit
import Verif.Lemmas.StructuredText
import Verif.Spec.Examples

/-! C64: defaults stand for absent members; required members and children. -/

namespace Scheme

/-- The default the member `name` has, if it has one. -/
def memberDefault (env : Env) (defn : List (Str × Field)) (name : Str) : Option Val :=
  match (defn.lookup name).bind fun f => (resolve env f).bind (·.common?) with
  | some c => if c.default.isNone then none else some c.default
  | none => none

/-- The entries a dict lacks: the defaults of the members it does not mention. -/
def absentDefaults (env : Env) (defn : List (Str × Field)) (d : List (Val × Val)) (names : List Str) : List (Val × Val) :=
  names.filterMap fun name => if (given d name).isNone then (memberDefault env defn name).map fun v => (.str name, v) else none

theorem given_append (a b : List (Val × Val)) (name : Str) : given (a ++ b) name = (given a name).or (given b name) := by
  simp only [given, List.find?_append]
  cases List.find? (fun e => match e.1 with | .str s => s == name | _ => false) a <;> rfl

theorem given_absentDefaults (env : Env) (defn : List (Str × Field)) (d : List (Val × Val)) (names : List Str) (name : Str)
    (hd : given d name = none) :
    given (absentDefaults env defn d names) name = if name ∈ names then memberDefault env defn name else none := by
  induction names with
  | nil => rfl
  | cons a r ih =>
    unfold absentDefaults at ih ⊢
    rw [List.filterMap_cons]
    by_cases ha : a = name
    · subst ha
      rw [hd]
      simp only [Option.isNone_none, if_true, List.mem_cons, true_or]
      cases hm : memberDefault env defn a with
      | none =>
        simp only [Option.map_none]
        rw [ih]
        split <;> simp [hm]
      | some v =>
        simp only [Option.map_some]
        rw [given_cons_str, if_pos rfl]
    · have hmem : (name ∈ a :: r) ↔ name ∈ r := by simp [Ne.symm ha]
      simp only [hmem]
      rw [← ih]
      split
      · rfl
      · rename_i e he
        split at he
        · cases hm : memberDefault env defn a with
          | none => rw [hm] at he; cases he
          | some v => rw [hm] at he; cases he; rw [given_cons_str, if_neg ha]
        · cases he

theorem memberDefault_declares {env : Env} {defn : List (Str × Field)} {name : Str} {g : Field} {c : Common}
    (h : Declares env defn name g c) : memberDefault env defn name = if c.default.isNone then none else some c.default := by
  obtain ⟨f, h1, h2, h3⟩ := h
  simp [memberDefault, h1, h2, h3]

theorem declares_unique {env : Env} {defn : List (Str × Field)} {name : Str} {g g' : Field} {c c' : Common}
    (h : Declares env defn name g c) (h' : Declares env defn name g' c') : g = g' ∧ c = c' := by
  obtain ⟨f, h1, h2, h3⟩ := h
  obtain ⟨f', h1', h2', h3'⟩ := h'
  cases h1.symm.trans h1'
  cases h2.symm.trans h2'
  cases h3.symm.trans h3'
  exact ⟨rfl, rfl⟩

/-- Two dicts with the same declared keys, defaults counted, are accepted alike. -/
theorem accepts_congr (env : Env) (n : Nat) (c : Common) (defn : List (Str × Field))
    (strict : Bool) (ko : List Str) (hpre : c.pre = none) (hnd : (visitOrder defn ko).Nodup)
    (hdecl : ∀ name ∈ visitOrder defn ko, ∃ g cm, Declares env defn name g cm)
    (d d' : List (Val × Val)) (w : Val) (ser : Bool) (anc : List Str) (ha : anc ≠ [])
    (hkeys : (∀ e ∈ d, ∃ name ∈ visitOrder defn ko, e.1 = .str name) ↔
      ∀ e ∈ d', ∃ name ∈ visitOrder defn ko, e.1 = .str name)
    (hg : ∀ name ∈ visitOrder defn ko, given d' name = (given d name).or (memberDefault env defn name)) :
    process env (n + 1) (.structure c defn strict ko) (.dict d) .inbound ser anc = .ok w ↔
    process env (n + 1) (.structure c defn strict ko) (.dict d') .inbound ser anc = .ok w := by
  rw [C05_structure_accepts_iff env n c defn strict ko hpre hnd hdecl d w .inbound ser anc ha,
    C05_structure_accepts_iff env n c defn strict ko hpre hnd hdecl _ w .inbound ser anc ha]
  have hslot : ∀ name ∈ visitOrder defn ko, ∀ r, SlotOk env n defn d .inbound ser false anc name r ↔
      SlotOk env n defn d' .inbound ser false anc name r := by
    intro name hname r
    have key : ∀ g cm, Declares env defn name g cm →
        memberInput cm (given d name) .inbound false = memberInput cm (given d' name) .inbound false ∧
        (memberMissing cm (given d name) .inbound false ↔ memberMissing cm (given d' name) .inbound false) := by
      intro g cm hcm
      rw [hg name hname]
      cases hgd : given d name with
      | some v => simp
      | none =>
        rw [Option.none_or, memberDefault_declares hcm]
        unfold memberMissing
        cases hdf : cm.default <;> simp [memberInput, hdf, Val.isNone]
    constructor
    · rintro ⟨g, cm, h1, h2, h3⟩
      obtain ⟨k1, k2⟩ := key g cm h1
      exact ⟨g, cm, h1, fun h => h2 (k2.2 h), by rw [← k1]; exact h3⟩
    · rintro ⟨g, cm, h1, h2, h3⟩
      obtain ⟨k1, k2⟩ := key g cm h1
      exact ⟨g, cm, h1, fun h => h2 (k2.1 h), by rw [k1]; exact h3⟩
  constructor
  · rintro ⟨h1, slots, h2, h3, h4⟩
    exact ⟨fun hs => hkeys.1 (h1 hs), slots, h2,
      fun x hx => (hslot x.1 (by rw [← h2]; exact List.mem_map_of_mem hx) x.2).1 (h3 x hx), h4⟩
  · rintro ⟨h1, slots, h2, h3, h4⟩
    exact ⟨fun hs => hkeys.2 (h1 hs), slots, h2,
      fun x hx => (hslot x.1 (by rw [← h2]; exact List.mem_map_of_mem hx) x.2).2 (h3 x hx), h4⟩

/-- C64. Inbound, absent members are as if given by their defaults: a dict is accepted, and with what result, exactly
as the dict with the defaults of absent members added. -/
theorem C64_defaults (env : Env) (n : Nat) (c : Common) (defn : List (Str × Field))
    (strict : Bool) (ko : List Str) (hpre : c.pre = none) (hnd : (visitOrder defn ko).Nodup)
    (hdecl : ∀ name ∈ visitOrder defn ko, ∃ g cm, Declares env defn name g cm)
    (d : List (Val × Val)) (w : Val) (ser : Bool) (anc : List Str) (ha : anc ≠ []) :
    process env (n + 1) (.structure c defn strict ko) (.dict d) .inbound ser anc = .ok w ↔
    process env (n + 1) (.structure c defn strict ko)
      (.dict (d ++ absentDefaults env defn d (visitOrder defn ko))) .inbound ser anc = .ok w := by
  refine accepts_congr env n c defn strict ko hpre hnd hdecl _ _ w ser anc ha ?_ ?_
  · constructor
    · intro h e he
      rcases List.mem_append.1 he with he | he
      · exact h e he
      · simp only [absentDefaults, List.mem_filterMap] at he
        obtain ⟨a, ha, e'⟩ := he
        split at e'
        · simp only [Option.map_eq_some_iff] at e'
          obtain ⟨v, _, rfl⟩ := e'
          exact ⟨a, ha, rfl⟩
        · cases e'
    · exact fun h e he => h e (List.mem_append_left _ he)
  · intro name hname
    rw [given_append]
    cases hgd : given d name with
    | some v => rfl
    | none => rw [Option.none_or, Option.none_or, given_absentDefaults _ _ _ _ _ hgd, if_pos hname]

/-- An optional integer by default 3, a required text. -/
def defaultsEx : List (Str × Field) :=
  [(c!"a", .leaf { default := .int 3 } (.integer none none)), (c!"b", .leaf { required := true } (.text none none none false))]

example : absentDefaults Ex.env defaultsEx [(.str c!"b", .str c!"x")] (visitOrder defaultsEx []) = [(.str c!"a", .int 3)] ∧
    process Ex.env 2 (.structure {} defaultsEx true []) (.dict [(.str c!"b", .str c!"x")]) .inbound false [c!"s"] =
      .ok (.dict [(.str c!"a", .int 3), (.str c!"b", .str c!"x")]) := ⟨rfl, rfl⟩

/-- C64. So a default is read as the values are: with serialized values the default of a Binary field is decoded, and
a date given as text is a default for serialized values only. -/
theorem C64_default_read :
    process Ex.env 2 (.structure {} [(c!"a", .leaf { default := .bytes ([89, 87, 74, 106]) } (.binary none none))] true [])
      (.dict []) .inbound true [c!"s"] = .ok (.dict [(.str c!"a", .bytes ([97, 98, 99]))]) ∧
    (∃ w, process Ex.env 2 (.structure {} [(c!"a", .leaf { default := .str c!"2020-02-29" } (.date none none))] true [])
      (.dict []) .inbound true [c!"s"] = .ok w) ∧
    ∃ e, process Ex.env 2 (.structure {} [(c!"a", .leaf { default := .str c!"2020-02-29" } (.date none none))] true [])
      (.dict []) .inbound false [c!"s"] = .error e := ⟨rfl, ⟨_, rfl⟩, ⟨_, rfl⟩⟩

theorem lookup_of_mem {defn : List (Str × Field)} {e : Str × Field} (hnd : (defn.map (·.1)).Nodup) (he : e ∈ defn) :
    defn.lookup e.1 = some e.2 := by
  induction defn with
  | nil => cases he
  | cons a r ih =>
    rw [List.map_cons, List.nodup_cons] at hnd
    rw [List.lookup_cons]
    rcases List.mem_cons.1 he with rfl | he
    · simp
    · have : (e.1 == a.1) = false := by
        have hne : e.1 ≠ a.1 := fun h => hnd.1 (by rw [← h]; exact List.mem_map_of_mem he)
        simpa using hne
      rw [this]
      exact ih hnd.2 he

theorem lookup_of_mem' {defn : List (Str × Field)} {name : Str} {f : Field} (hnd : (defn.map (·.1)).Nodup) (he : (name, f) ∈ defn) :
    defn.lookup name = some f := lookup_of_mem hnd he

theorem given_of_mem_str {d : List (Val × Val)} {name : Str} {v : Val} (hnd : (d.map (·.1)).Nodup) (h : (Val.str name, v) ∈ d) :
    given d name = some v := by
  induction d with
  | nil => cases h
  | cons a r ih =>
    rw [List.map_cons, List.nodup_cons] at hnd
    rcases List.mem_cons.1 h with rfl | h
    · rw [given_cons_str, if_pos rfl]
    · have hne : a.1 ≠ .str name := fun e => hnd.1 (by rw [e]; exact List.mem_map_of_mem (f := (·.1)) h)
      rw [show a :: r = [a] ++ r from rfl, given_append, ih hnd.2 h]
      obtain ⟨k, x⟩ := a
      have : given [(k, x)] name = none := by
        cases k with
        | str s => rw [given_cons_str, if_neg (fun e => hne (by rw [e]))]; rfl
        | _ => rfl
      rw [this, Option.none_or]

theorem given_mem_str {d : List (Val × Val)} {name : Str} {v : Val} (h : given d name = some v) : (Val.str name, v) ∈ d := by
  induction d with
  | nil => cases h
  | cons a r ih =>
    obtain ⟨k, x⟩ := a
    cases k with
    | str s =>
      rw [given_cons_str] at h
      split at h
      · rename_i e; cases h; rw [e]; exact List.mem_cons_self ..
      · exact List.mem_cons_of_mem _ (ih h)
    | _ => exact List.mem_cons_of_mem _ (ih h)

/-- C64. The generated defaults of a structure, unless a constant is among them, are accepted as an empty dict is, with
the same result. -/
theorem C64_generated (env : Env) (n : Nat) (c : Common) (defn : List (Str × Field)) (strict : Bool)
    (hpre : c.pre = none) (hnd : (defn.map (·.1)).Nodup)
    (hdecl : ∀ name ∈ defn.map (·.1), ∃ g cm, Declares env defn name g cm)
    (hconst : ∀ name g cm, Declares env defn name g cm → cm.default = .none → cm.constant = .none)
    (gd : Val) (hgd : generateDefaults env (.structure c defn strict []) .none true = .ok gd)
    (w : Val) (ser : Bool) (anc : List Str) (ha : anc ≠ []) :
    process env (n + 1) (.structure c defn strict []) (.dict []) .inbound ser anc = .ok w ↔
    process env (n + 1) (.structure c defn strict []) gd .inbound ser anc = .ok w := by
  obtain ⟨d, rfl, hsub, hmem⟩ := C37_defaults env c defn strict [] true gd hgd
  have hkn : (d.map (·.1)).Nodup := by
    apply hsub.nodup
    rw [show (defn.map fun e => Val.str e.1) = (defn.map (·.1)).map Val.str by rw [List.map_map]; rfl]
    rw [List.nodup_iff_pairwise_ne, List.pairwise_map]
    exact (List.nodup_iff_pairwise_ne.1 hnd).imp fun h e => h (by cases e; rfl)
  refine accepts_congr env n c defn strict [] hpre hnd hdecl _ _ w ser anc ha ?_ ?_
  · refine ⟨fun _ e he => ?_, fun _ e he => by cases he⟩
    have := hsub.subset (List.mem_map_of_mem (f := (·.1)) he)
    obtain ⟨x, hx, e'⟩ := List.mem_map.1 this
    exact ⟨x.1, List.mem_map_of_mem hx, e'.symm⟩
  · intro name hname
    rw [show given [] name = none from rfl, Option.none_or]
    obtain ⟨g, cm, hd⟩ := hdecl name hname
    rw [memberDefault_declares hd]
    obtain ⟨f, hf, hr, hc⟩ := hd
    have hfm := ST.mem_of_lookup hf
    by_cases hdef : cm.default = .none
    · rw [hdef]
      show given d name = none
      cases hg : given d name with
      | none => rfl
      | some v =>
        exfalso
        obtain ⟨f', g', c', h1, h2, h3, h4, h5⟩ := (hmem name v).1 (given_mem_str hg)
        have := lookup_of_mem' hnd h1
        cases hf.symm.trans this
        cases hr.symm.trans h2
        cases hc.symm.trans h3
        rcases h4 with ⟨h4, _⟩ | ⟨_, h4⟩
        · exact h4 hdef
        · exact h5 rfl (h4.trans (hconst name g cm ⟨f, hf, hr, hc⟩ hdef))
    · have hi : cm.default.isNone = false := by cases hq : cm.default <;> simp_all [Val.isNone]
      rw [hi]
      exact given_of_mem_str hkn ((hmem name cm.default).2 ⟨f, g, cm, hfm, hr, hc, .inl ⟨hdef, rfl⟩, fun _ => hdef⟩)

example : generateDefaults Ex.env (.structure {} defaultsEx true []) .none true = .ok (.dict [(.str c!"a", .int 3)]) := rfl

/-! ### Required members -/

theorem anyRequired_iff {env : Env} {defn : List (Str × Field)} {b : Bool} (h : anyRequired env defn = .ok b) :
    b = true ↔ ∃ e ∈ defn, ∃ g cm, resolve env e.2 = some g ∧ g.common? = some cm ∧ cm.required = true ∧ cm.default = .none := by
  induction defn with
  | nil => cases h; simp
  | cons e r ih =>
    obtain ⟨name, f⟩ := e
    rw [anyRequired] at h
    cases hf : (resolve env f).bind (·.common?) with
    | none => rw [hf] at h; cases h
    | some c =>
      rw [hf] at h
      obtain ⟨g, hg, hc⟩ := Option.bind_eq_some_iff.1 hf
      simp only at h
      by_cases hr : (c.required && c.default.isNone) = true
      · rw [if_pos hr] at h
        cases h
        simp only [Bool.and_eq_true] at hr
        refine ⟨fun _ => ⟨_, List.mem_cons_self .., g, c, hg, hc, hr.1, ?_⟩, fun _ => rfl⟩
        cases hd : c.default <;> simp_all [Val.isNone]
      · rw [if_neg hr] at h
        rw [ih h]
        constructor
        · rintro ⟨e, he, x⟩; exact ⟨e, List.mem_cons_of_mem _ he, x⟩
        · rintro ⟨e, he, g', cm, x1, x2, x3, x4⟩
          rcases List.mem_cons.1 he with rfl | he
          · cases hg.symm.trans x1
            cases hc.symm.trans x2
            exact absurd (by simp [x3, x4, Val.isNone]) hr
          · exact ⟨e, he, g', cm, x1, x2, x3, x4⟩

/-- C64. A structure says it has required fields exactly if one is required and has no default. -/
theorem C64_has_required (env : Env) (c : Common) (defn : List (Str × Field)) (strict : Bool) (ko : List Str)
    (hnd : (defn.map (·.1)).Nodup) (b : Bool) (h : hasRequiredFields env (.structure c defn strict ko) = .ok b) :
    b = true ↔ ∃ name g cm, Declares env defn name g cm ∧ cm.required = true ∧ cm.default = .none := by
  rw [anyRequired_iff h]
  constructor
  · rintro ⟨e, he, g, cm, h1, h2, h3, h4⟩
    exact ⟨e.1, g, cm, ⟨e.2, lookup_of_mem hnd he, h1, h2⟩, h3, h4⟩
  · rintro ⟨name, g, cm, ⟨f, h0, h1, h2⟩, h3, h4⟩
    exact ⟨(name, f), ST.mem_of_lookup h0, g, cm, h1, h2, h3, h4⟩

/-- C64. If it says so, no processing of an empty dict succeeds. -/
theorem C64_required_rejects (env : Env) (n : Nat) (c : Common) (defn : List (Str × Field)) (strict : Bool)
    (hpre : c.pre = none) (hnd : (defn.map (·.1)).Nodup)
    (hdecl : ∀ name ∈ defn.map (·.1), ∃ g cm, Declares env defn name g cm)
    (h : hasRequiredFields env (.structure c defn strict []) = .ok true)
    (ph : Phase) (ser : Bool) (anc : List Str) (ha : anc ≠ []) :
    ∃ e, process env (n + 1) (.structure c defn strict []) (.dict []) ph ser anc = .error e := by
  cases hp : process env (n + 1) (.structure c defn strict []) (.dict []) ph ser anc with
  | error e => exact ⟨e, rfl⟩
  | ok w =>
    exfalso
    rw [C05_structure_accepts_iff env n c defn strict [] hpre hnd hdecl [] w ph ser anc ha] at hp
    obtain ⟨-, slots, h1, h2, -⟩ := hp
    obtain ⟨name, g, cm, hd, hr, hdef⟩ := (C64_has_required env c defn strict [] hnd true h).1 rfl
    have hm : name ∈ slots.map (·.1) := by
      rw [h1]
      obtain ⟨f, hf, -⟩ := hd
      exact List.mem_map.2 ⟨_, ST.mem_of_lookup hf, rfl⟩
    obtain ⟨x, hx, rfl⟩ := List.mem_map.1 hm
    obtain ⟨g', cm', hd', hmiss, -⟩ := h2 x hx
    obtain ⟨rfl, rfl⟩ := declares_unique hd hd'
    apply hmiss
    refine ⟨rfl, rfl, hr, ?_⟩
    cases ph <;> simp [memberInput, given, hdef]

/-- C64. If it says no, an empty dict is accepted inbound exactly if the fields accept their defaults. -/
theorem C64_no_required (env : Env) (n : Nat) (c : Common) (defn : List (Str × Field)) (strict : Bool)
    (hpre : c.pre = none) (hnd : (defn.map (·.1)).Nodup)
    (hdecl : ∀ name ∈ defn.map (·.1), ∃ g cm, Declares env defn name g cm)
    (h : hasRequiredFields env (.structure c defn strict []) = .ok false)
    (ser : Bool) (anc : List Str) (ha : anc ≠ []) :
    (∃ w, process env (n + 1) (.structure c defn strict []) (.dict []) .inbound ser anc = .ok w) ↔
      ∀ name g cm, Declares env defn name g cm → cm.default ≠ .none →
        ∃ r, process env n g cm.default .inbound ser (anc ++ ['.' :: name]) = .ok r := by
  have hno : ∀ name g cm, Declares env defn name g cm → cm.required = true → cm.default ≠ .none := by
    intro name g cm h1 h2 h3
    have := (C64_has_required env c defn strict [] hnd false h).2 ⟨name, g, cm, h1, h2, h3⟩
    cases this
  have hin : ∀ cm : Common, memberInput cm none .inbound false = if cm.default.isNone then none else some cm.default := by
    intro cm
    cases hd : cm.default <;> simp [memberInput, hd, Val.isNone]
  constructor
  · rintro ⟨w, hw⟩ name g cm hd hdef
    rw [C05_structure_accepts_iff env n c defn strict [] hpre hnd hdecl [] w .inbound ser anc ha] at hw
    obtain ⟨-, slots, h1, h2, -⟩ := hw
    have hm : name ∈ slots.map (·.1) := by
      rw [h1]
      obtain ⟨f, hf, -⟩ := hd
      exact List.mem_map.2 ⟨_, ST.mem_of_lookup hf, rfl⟩
    obtain ⟨x, hx, rfl⟩ := List.mem_map.1 hm
    obtain ⟨g', cm', hd', _, h3⟩ := h2 x hx
    obtain ⟨rfl, rfl⟩ := declares_unique hd hd'
    have hi : cm.default.isNone = false := by cases hq : cm.default <;> simp_all [Val.isNone]
    have hgiv : given [] x.1 = none := rfl
    rw [hgiv, hin, hi] at h3
    rcases h3 with ⟨h4, _⟩ | ⟨v, r, h4, _, h5⟩
    · cases h4
    · cases h4; exact ⟨r, h5⟩
  · intro hall
    have hslot : ∀ name ∈ defn.map (·.1), ∃ r, SlotOk env n defn [] .inbound ser false anc name r := by
      intro name hn
      obtain ⟨g, cm, hd⟩ := hdecl name hn
      have hgiv : given [] name = none := rfl
      have hmiss : ¬ memberMissing cm (given [] name) .inbound false := by
        rintro ⟨_, _, h3, h4⟩
        rw [hgiv, hin] at h4
        have := hno name g cm hd h3
        cases hq : cm.default <;> simp_all [Val.isNone]
      by_cases hdef : cm.default = .none
      · exact ⟨none, g, cm, hd, hmiss, .inl ⟨by rw [hgiv, hin, hdef]; rfl, rfl⟩⟩
      · obtain ⟨r, hr⟩ := hall name g cm hd hdef
        have hi : cm.default.isNone = false := by cases hq : cm.default <;> simp_all [Val.isNone]
        exact ⟨some r, g, cm, hd, hmiss, .inr ⟨_, r, by rw [hgiv, hin, hi]; rfl, rfl, hr⟩⟩
    have hslots : ∀ l : List Str, (∀ name ∈ l, name ∈ defn.map (·.1)) → ∃ slots : List (Str × Option Val), slots.map (·.1) = l ∧
        ∀ x ∈ slots, SlotOk env n defn [] .inbound ser false anc x.1 x.2 := by
      intro l
      induction l with
      | nil => exact fun _ => ⟨[], rfl, by simp⟩
      | cons a t ih =>
        intro hl
        obtain ⟨r, hr⟩ := hslot a (hl a (List.mem_cons_self ..))
        obtain ⟨slots, h1, h2⟩ := ih fun x hx => hl x (List.mem_cons_of_mem _ hx)
        refine ⟨(a, r) :: slots, by simp [h1], ?_⟩
        intro x hx
        rcases List.mem_cons.1 hx with rfl | hx
        · exact hr
        · exact h2 x hx
    obtain ⟨slots, h1, h2⟩ := hslots (visitOrder defn []) fun _ h => h
    exact ⟨_, (C05_structure_accepts_iff env n c defn strict [] hpre hnd hdecl [] _ .inbound ser anc ha).2
      ⟨by simp, slots, h1, h2, rfl⟩⟩

/-- C64. Outbound, defaults do not count: an empty dict is accepted, as it is, exactly if no member is required, with a
default or without. -/
theorem C64_outbound (env : Env) (n : Nat) (c : Common) (defn : List (Str × Field)) (strict : Bool)
    (hpre : c.pre = none) (hnd : (defn.map (·.1)).Nodup)
    (hdecl : ∀ name ∈ defn.map (·.1), ∃ g cm, Declares env defn name g cm)
    (ser : Bool) (anc : List Str) (ha : anc ≠ []) (w : Val) :
    process env (n + 1) (.structure c defn strict []) (.dict []) .outbound ser anc = .ok w ↔
      w = .dict [] ∧ ∀ name g cm, Declares env defn name g cm → cm.required = false := by
  rw [C05_structure_accepts_iff env n c defn strict [] hpre hnd hdecl [] w .outbound ser anc ha]
  have hin : ∀ (cm : Common) name, memberInput cm (given [] name) .outbound false = none := by
    intro cm name
    simp [memberInput, given]
  constructor
  · rintro ⟨-, slots, h1, h2, h3⟩
    constructor
    · rw [h3]
      congr 1
      rw [slotDict, List.filterMap_eq_nil_iff]
      intro x hx
      obtain ⟨g, cm, hd, _, h4⟩ := h2 x hx
      rw [hin] at h4
      rcases h4 with ⟨_, h5⟩ | ⟨v, r, h5, _⟩
      · rw [h5]; rfl
      · cases h5
    · intro name g cm hd
      have hm : name ∈ slots.map (·.1) := by
        rw [h1]
        obtain ⟨f, hf, -⟩ := hd
        exact List.mem_map.2 ⟨_, ST.mem_of_lookup hf, rfl⟩
      obtain ⟨x, hx, rfl⟩ := List.mem_map.1 hm
      obtain ⟨g', cm', hd', hmiss, _⟩ := h2 x hx
      obtain ⟨rfl, rfl⟩ := declares_unique hd hd'
      cases hr : cm.required with
      | false => rfl
      | true => exact absurd ⟨rfl, rfl, hr, hin cm x.1⟩ hmiss
  · rintro ⟨rfl, hall⟩
    refine ⟨by simp, (visitOrder defn []).map fun a => (a, none), by rw [List.map_map]; exact List.map_id _, ?_, ?_⟩
    · intro x hx
      obtain ⟨a, ha', rfl⟩ := List.mem_map.1 hx
      obtain ⟨g, cm, hd⟩ := hdecl a ha'
      refine ⟨g, cm, hd, ?_, .inl ⟨hin cm a, rfl⟩⟩
      rintro ⟨_, _, h3, _⟩
      rw [hall a g cm hd] at h3
      cases h3
    · congr 1
      symm
      rw [slotDict, List.filterMap_eq_nil_iff]
      intro x hx
      obtain ⟨a, _, rfl⟩ := List.mem_map.1 hx
      rfl

/-- C64. So a structure may say it has no required fields, accept an empty dict inbound, and reject it outbound; and with
a key order that leaves a member out it may say it has some and accept an empty dict. -/
theorem C64_required_deviations :
    (hasRequiredFields Ex.env (.structure {} [(c!"a", .leaf { required := true, default := .int 3 } (.integer none none))] true []) = .ok false ∧
    ∃ e, process Ex.env 2 (.structure {} [(c!"a", .leaf { required := true, default := .int 3 } (.integer none none))] true [])
      (.dict []) .outbound false [c!"s"] = .error e) ∧
    hasRequiredFields Ex.env (.structure {} defaultsEx true [c!"a"]) = .ok true ∧
    process Ex.env 2 (.structure {} defaultsEx true [c!"a"]) (.dict []) .inbound false [c!"s"] =
      .ok (.dict [(.str c!"a", .int 3)]) := ⟨⟨rfl, _, rfl⟩, rfl, rfl⟩

/-- C64. A polymorphic structure always says so, and always rejects an empty dict. -/
theorem C64_poly (env : Env) (n : Nat) (c : Common) (disc : Field) (vs : List (Val × List (Str × Field))) (strict : Bool)
    (ko : List Str) (hpre : c.pre = none) (ph : Phase) (ser : Bool) (anc : List Str) (ha : anc ≠ []) :
    hasRequiredFields env (.poly c disc vs strict ko) = .ok true ∧
    ∃ e, process env (n + 1) (.poly c disc vs strict ko) (.dict []) ph ser anc = .error e := by
  refine ⟨rfl, ?_⟩
  have hn : isNull (.poly c disc vs strict ko) (.dict []) anc = .ok false := isNull_nonEnum rfl (by simp) (by simp)
  refine ⟨mkErr (.poly c disc vs strict ko) .validation anc .none c!"required" [(c!"name", disc.name.getD [])], ?_⟩
  show processPoly env (process env n) c disc vs strict ko false (.dict []) ph ser anc = _
  unfold processPoly
  simp only [ancOr_ne ha, hn, except_bind_ok, structPre, hpre]
  rfl

/-! ### Children -/

/-- C64. A structure that calls itself polymorphic rejects an empty dict; only such a structure has variants to get; one
that says it is not gives fields under names. -/
theorem C64_polymorphic (env : Env) (n : Nat) (f : Field) (c : Common) (hc : f.common? = some c) (hpre : c.pre = none) (ph : Phase)
    (ser : Bool) (anc : List Str) (ha : anc ≠ []) :
    (isPolymorphic f = .ok true → ∃ e, process env (n + 1) f (.dict []) ph ser anc = .error e) ∧
    (∀ key d, getChild f key = .ok (.variant d) → isPolymorphic f = .ok true) ∧
    (∀ key g, isPolymorphic f = .ok false → getChild f key = .ok g → g = .default ∨ ∃ h, g = .field h) := by
  cases f with
  | poly c' disc vs strict ko =>
    cases hc
    exact ⟨fun _ => (C64_poly env n c disc vs strict ko hpre ph ser anc ha).2, fun _ _ _ => rfl, fun _ _ h => (nomatch h)⟩
  | «structure» c' defn strict ko =>
    have key : ∀ key g, getChild (.structure c' defn strict ko) key = .ok g → g = .default ∨ ∃ h, g = .field h := by
      intro key g h
      simp only [getChild] at h
      split at h
      · split at h
        · rename_i s _
          cases hl : defn.lookup s <;> rw [hl] at h <;> cases h
          · exact .inl rfl
          · exact .inr ⟨_, rfl⟩
        · cases h; exact .inl rfl
      · cases h
    refine ⟨fun h => (nomatch h), fun k d h => ?_, fun k g _ h => key k g h⟩
    rcases key _ _ h with h | ⟨_, h⟩ <;> cases h
  | tuple c' values =>
    refine ⟨fun h => (nomatch h), fun k d h => ?_, fun k g h => (nomatch h)⟩
    have ht : ∀ i, tupleAt values i ≠ .variant d := by
      intro i h
      simp only [tupleAt] at h
      generalize (if i < 0 then i + (values.length : Int) else i) = j at h
      by_cases hj : j < 0
      · rw [if_pos hj] at h; cases h
      · rw [if_neg hj] at h
        cases hv : values[j.toNat]? <;> rw [hv] at h <;> cases h
    simp only [getChild] at h
    split at h
    · exact absurd (Except.ok.inj h) (ht _)
    · exact absurd (Except.ok.inj h) (ht _)
    · cases h
  | _ => exact ⟨fun h => (nomatch h), fun k d h => (nomatch h), fun k g h => (nomatch h)⟩

/-- C64. `get` of a structure finds the declared field; of a tuple the field at the position, counted from the end if
negative; the default if there is none. -/
theorem C64_get_structure (c : Common) (defn : List (Str × Field)) (strict : Bool) (ko : List Str) (name : Str) :
    (∀ f, defn.lookup name = some f → getChild (.structure c defn strict ko) (.str name) = .ok (.field f)) ∧
    (defn.lookup name = none → getChild (.structure c defn strict ko) (.str name) = .ok .default) := by
  constructor
  · intro f h; simp [getChild, hashable, h, Got.of]
  · intro h; simp [getChild, hashable, h, Got.of]

theorem C64_get_tuple (c : Common) (values : List Field) (i : Int) :
    getChild (.tuple c values) (.int i) = .ok
      (Got.of (if 0 ≤ i then values[i.toNat]? else if -values.length ≤ i then values[values.length - i.natAbs]? else none)) := by
  simp only [getChild, tupleAt]
  by_cases h : i < 0
  · rw [if_pos h, if_neg (by omega : ¬ 0 ≤ i)]
    by_cases h2 : i + (values.length : Int) < 0
    · rw [if_pos h2, if_neg (by omega)]; rfl
    · rw [if_neg h2, if_pos (by omega), show (i + (values.length : Int)).toNat = values.length - i.natAbs by omega]
  · rw [if_neg h, if_neg h, if_pos (by omega : 0 ≤ i)]

example : getChild (.tuple {} [Ex.int, Ex.text]) (.int (-1)) = .ok (.field Ex.text) ∧
    getChild (.tuple {} [Ex.int, Ex.text]) (.int (-3)) = .ok .default := ⟨rfl, rfl⟩

/-- C64. Sequences, maps, unions and simple fields have no children by key: TypeError. -/
theorem C64_get_none (f : Field) (key : Val) (h1 : ∀ c d s k, f ≠ .structure c d s k) (h2 : ∀ c d v s k, f ≠ .poly c d v s k)
    (h3 : ∀ c v, f ≠ .tuple c v) (h4 : ∀ u, f ≠ .undef u) : getChild f key = .error .typeError := by
  cases f <;> first | rfl | exact absurd rfl (h1 _ _ _ _) | exact absurd rfl (h2 _ _ _ _ _) | exact absurd rfl (h3 _ _) | exact absurd rfl (h4 _)

example : getChild (.sequence {} Ex.int none none false) (.int 0) = .error .typeError := rfl

end Scheme
