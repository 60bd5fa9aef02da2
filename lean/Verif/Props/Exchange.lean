import Verif.Spec.Exchange
import Verif.Props.Described
import Verif.Props.Json

/-! C90: a schema described, written as JSON, read and reconstructed. -/

namespace Scheme
namespace Exch
open Json
variable {env : Env}

theorem _root_.Scheme.JsonKept.carries {v : Val} (h : JsonKept env v) : Carries env v v := by
  induction h with
  | none => exact .none
  | bool b => exact .bool b
  | int i => exact .int i
  | float h => exact .float h
  | str s => exact .str s
  | @list l _ ih =>
    have := Carries.list (env := env) (ps := l.map fun v => (v, v)) (by
      intro p hp
      obtain ⟨v, hv, rfl⟩ := List.mem_map.1 hp
      exact ih v hv)
    have e1 : (l.map fun v => (v, v)).map (·.1) = l := by rw [List.map_map]; exact List.map_id _
    have e2 : (l.map fun v => (v, v)).map (·.2) = l := by rw [List.map_map]; exact List.map_id _
    rw [e1, e2] at this
    exact this
  | @dict d hn _ ih =>
    have := Carries.dict (env := env) (es := d.map fun e => ((.str e.1, e.1), e.2, e.2)) (by
        rw [List.map_map]; exact hn) (by
      intro p hp
      obtain ⟨v, hv, rfl⟩ := List.mem_map.1 hp
      exact .str _) (by
      intro p hp
      obtain ⟨v, hv, rfl⟩ := List.mem_map.1 hp
      exact ih v hv)
    rw [List.map_map, List.map_map] at this
    exact this

theorem items_self {l : List Val} (h : ∀ v ∈ l, descParam env v = .ok v) : descItems env l = .ok l := by
  induction l with
  | nil => rfl
  | cons v r ih =>
    simp only [descItems, h _ (List.mem_cons_self ..), ih fun v hv => h v (List.mem_cons_of_mem _ hv), except_bind_ok]; rfl

theorem entries_self {l : List (Str × Val)} (h : ∀ v ∈ l, descParam env v.2 = .ok v.2) :
    descEntries env (l.map fun e => (.str e.1, e.2)) = .ok (l.map fun e => (.str e.1, e.2)) := by
  induction l with
  | nil => rfl
  | cons v r ih =>
    simp only [List.map_cons, descEntries, h _ (List.mem_cons_self ..), ih fun v hv => h v (List.mem_cons_of_mem _ hv), except_bind_ok]; rfl

theorem _root_.Scheme.JsonKept.desc {v : Val} (h : JsonKept env v) : descParam env v = .ok v := by
  induction h with
  | list _ ih => simp only [descParam, items_self ih]; rfl
  | dict _ _ ih => simp only [descParam, entries_self ih]; rfl
  | _ => rfl

/-- A description under construction. -/
structure Inv (env : Env) (d : Desc) : Prop where
  nodup : (d.map (·.1)).Nodup
  kept : ∀ e ∈ d, JsonKept env e.2

theorem Inv.set {d : Desc} (h : Inv env d) {k : Str} {v : Val} (hv : JsonKept env v) : Inv env (keySet k v d) :=
  ⟨nodup_keySet h.nodup, fun _ he => (mem_keySet_or he).elim (fun h => h ▸ hv) (h.kept _)⟩

theorem descSet_inv {d d' : Desc} (hi : Inv env d) {k : Str} {v : Val} (hv : KeptOrLeftOut env v)
    (h : descSet env k v d = .ok d') : Inv env d' := by
  unfold descSet at h
  rcases hv with hv | hv
  · rw [hv.desc] at h; cases h; exact hi.set hv
  · rw [hv.desc] at h; cases h; exact hi

theorem aspects_inv {as : List (Str × Val)} {d d' : Desc} (hi : Inv env d) (ha : ∀ e ∈ as, KeptOrLeftOut env e.2)
    (h : descAspects env as d = .ok d') : Inv env d' := by
  induction as generalizing d with
  | nil => cases h; exact hi
  | cons e r ih =>
    obtain ⟨a, v⟩ := e
    have hr := fun e he => ha e (List.mem_cons_of_mem _ he)
    unfold descAspects at h
    split at h
    · exact ih hi hr h
    · obtain ⟨d1, h1, h2⟩ := except_bind_eq_ok.1 h
      exact ih (descSet_inv hi (ha _ (List.mem_cons_self ..)) h1) hr h2

theorem table_inv {verbose : Bool} {skip : List Str} {t : List (Str × Val × Val)} {d d' : Desc} (hi : Inv env d)
    (ht : ∀ e ∈ t, e.1 ∈ skip ∨ KeptOrLeftOut env e.2.1) (h : descTable env verbose skip t d = .ok d') : Inv env d' := by
  induction t generalizing d with
  | nil => cases h; exact hi
  | cons e r ih =>
    obtain ⟨a, v, x⟩ := e
    have hr := fun e he => ht e (List.mem_cons_of_mem _ he)
    unfold descTable at h
    split at h
    · exact ih hi hr h
    · next hc =>
      obtain ⟨d1, h1, h2⟩ := except_bind_eq_ok.1 h
      rcases ht _ (List.mem_cons_self ..) with hs | hv
      · exact absurd (by simp only at hs; simp [hs]) hc
      · exact ih (descSet_inv hi hv h1) hr h2

theorem over_inv {verbose : Bool} {t : List (Str × Val)} {d d' : Desc} (hi : Inv env d)
    (ht : ∀ e ∈ t, KeptOrLeftOut env e.2) (h : descOver env verbose t d = .ok d') : Inv env d' := by
  induction t generalizing d with
  | nil => cases h; exact hi
  | cons e r ih =>
    obtain ⟨a, v⟩ := e
    have hr := fun e he => ht e (List.mem_cons_of_mem _ he)
    unfold descOver at h
    split at h
    · exact ih hi hr h
    · obtain ⟨d1, h1, h2⟩ := except_bind_eq_ok.1 h
      exact ih (descSet_inv hi (ht _ (List.mem_cons_self ..)) h1) hr h2

theorem base_table {c : Common} (hc : KeptCommon env c) (s : Bool) : ∀ e ∈ baseTable c s, KeptOrLeftOut env e.2.1 := by
  intro e he
  simp only [baseTable, List.mem_cons, List.not_mem_nil, or_false] at he
  rcases he with rfl | rfl | rfl | rfl | rfl | rfl | rfl | rfl | rfl | rfl
  · cases c.name
    · exact .inl .none
    · exact .inl (.str _)
  · exact hc.constant
  · exact hc.description
  · exact hc.default
  · exact .inl (.bool _)
  · exact .inl (.bool _)
  · exact .inl (.bool _)
  · exact hc.title
  · exact hc.notes
  · exact .inl (.bool _)

/-- What Field.describe gives. -/
theorem base_kept {verbose : Bool} {type : Str} {c : Common} {s : Bool} {table : List (Str × Val × Val)} {over : List (Str × Val)}
    {v : Val} (hc : KeptCommon env c) (ht : ∀ e ∈ table, KeptOrLeftOut env e.2.1) (ho : ∀ e ∈ over, KeptOrLeftOut env e.2)
    (h : descBase env verbose type c s table over = .ok v) : JsonKept env v := by
  unfold descBase at h
  simp only [except_bind_eq_ok, except_pure, Except.ok.injEq] at h
  obtain ⟨d1, h1, d2, h2, d3, h3, rfl⟩ := h
  have i0 : Inv env [(c!"fieldtype", .str type)] := ⟨by simp, fun e he => by
    simp only [List.mem_singleton] at he; subst he; exact .str _⟩
  have i1 := aspects_inv i0 hc.aspects h1
  have i2 := table_inv i1 (fun e he => .inr ((List.mem_append.1 he).elim (base_table hc s e) (ht e))) h2
  have i3 := over_inv i2 ho h3
  exact .dict i3.nodup i3.kept

/-- All descriptions of the field are kept. -/
def AllKept (env : Env) (rec : DescRec) (f : Field) : Prop := ∀ v, rec f = .ok v → JsonKept env v

theorem child_kept {rec : DescRec} {f : Field} {v : Val} (h : descChild env rec f = .ok v)
    (hr : ∀ g, resolve env f = some g → AllKept env rec g) : JsonKept env v := by
  obtain ⟨g, h1, h2⟩ := descChild_ok.1 h
  exact hr g h1 v h2

theorem list_kept {rec : DescRec} {fs : List Field} {vs : List Val} (h : descList env rec fs = .ok vs)
    (hr : ∀ f ∈ fs, ∀ g, resolve env f = some g → AllKept env rec g) : ∀ v ∈ vs, JsonKept env v := by
  induction fs generalizing vs with
  | nil => cases h; exact fun _ h => nomatch h
  | cons f r ih =>
    simp only [descList, except_bind_eq_ok, except_pure, Except.ok.injEq] at h
    obtain ⟨v, h1, r', h2, rfl⟩ := h
    intro w hw
    rcases List.mem_cons.1 hw with rfl | hw
    · exact child_kept h1 (hr f (List.mem_cons_self ..))
    · exact ih h2 (fun f hf => hr f (List.mem_cons_of_mem _ hf)) w hw

theorem defn_kept {rec : DescRec} {l : List (Str × Field)} {m : List (Val × Val)} (h : descDefn env rec l = .ok m)
    (hr : ∀ e ∈ l, ∀ g, resolve env e.2 = some g → AllKept env rec g) :
    ∃ d : List (Str × Val), m = d.map (fun e => (.str e.1, e.2)) ∧ d.map (·.1) = l.map (·.1) ∧ ∀ e ∈ d, JsonKept env e.2 := by
  induction l generalizing m with
  | nil => cases h; exact ⟨[], rfl, rfl, fun _ h => nomatch h⟩
  | cons e r ih =>
    obtain ⟨name, f⟩ := e
    simp only [descDefn, except_bind_eq_ok, except_pure, Except.ok.injEq] at h
    obtain ⟨v, h1, r', h2, rfl⟩ := h
    obtain ⟨d, rfl, h3, h4⟩ := ih h2 fun f hf => hr f (List.mem_cons_of_mem _ hf)
    refine ⟨(name, v) :: d, rfl, by simp [h3], fun w hw => ?_⟩
    rcases List.mem_cons.1 hw with rfl | hw
    · exact child_kept h1 (hr _ (List.mem_cons_self ..))
    · exact h4 w hw

theorem defn_dict {rec : DescRec} {l : List (Str × Field)} {m : List (Val × Val)} (h : descDefn env rec l = .ok m)
    (hn : (l.map (·.1)).Nodup) (hr : ∀ e ∈ l, ∀ g, resolve env e.2 = some g → AllKept env rec g) : JsonKept env (.dict m) := by
  obtain ⟨d, rfl, h1, h2⟩ := defn_kept h hr
  exact .dict (h1 ▸ hn) h2

theorem variants_kept {rec : DescRec} {vs : List (Val × List (Str × Field))} {ms : List (Val × Val)}
    (h : All2 (fun v m => m.1 = v.1 ∧ ∃ e, m.2 = .dict e ∧ descDefn env rec v.2 = .ok e) vs ms)
    (hv : ∀ v ∈ vs, (∃ s, v.1 = .str s) ∧ (v.2.map (·.1)).Nodup)
    (hr : ∀ v ∈ vs, ∀ e ∈ v.2, ∀ g, resolve env e.2 = some g → AllKept env rec g) :
    ∃ d : List (Str × Val), ms = d.map (fun e => (.str e.1, e.2)) ∧ d.map (fun e => Val.str e.1) = vs.map (·.1) ∧
      ∀ e ∈ d, JsonKept env e.2 := by
  induction h with
  | nil => exact ⟨[], rfl, rfl, fun _ h => nomatch h⟩
  | @cons v m vs ms h1 _ ih =>
    obtain ⟨d, rfl, h3, h4⟩ := ih (fun v hm => hv v (List.mem_cons_of_mem _ hm)) fun v hm => hr v (List.mem_cons_of_mem _ hm)
    obtain ⟨k, x⟩ := m
    obtain ⟨rfl, e, rfl, h5⟩ := h1
    obtain ⟨⟨s, hs⟩, hn⟩ := hv v (List.mem_cons_self ..)
    refine ⟨(s, .dict e) :: d, by simp [hs], by simp [hs, h3], fun w hw => ?_⟩
    rcases List.mem_cons.1 hw with rfl | hw
    · exact defn_dict h5 hn (hr v (List.mem_cons_self ..))
    · exact h4 w hw

theorem natV_kept (n : Option Nat) : KeptOrLeftOut env (natV n) := by
  cases n
  · exact .inl .none
  · exact .inl (.int _)
theorem intV_kept (n : Option Int) : KeptOrLeftOut env (intV n) := by
  cases n
  · exact .inl .none
  · exact .inl (.int _)
theorem floatV_kept {x : Option PyFloat} (h : ∀ y, x = some y → Json.FloatText env y) : KeptOrLeftOut env (floatV x) := by
  cases x
  · exact .inl .none
  · exact .inl (.float (h _ rfl))
theorem listV_kept {l : List Val} (h : ∀ v ∈ l, JsonKept env v) : KeptOrLeftOut env (listV l) := by
  cases l
  · exact .inl .none
  · exact .inl (.list h)

theorem leaf_table {c : Common} {k : Leaf} (h : KeptParts env (.leaf c k)) : ∀ e ∈ leafTable k, KeptOrLeftOut env e.2.1 := by
  intro e he
  cases k <;> simp only [leafTable, List.mem_cons, List.not_mem_nil, or_false] at he
  case binary => rcases he with rfl | rfl <;> exact natV_kept _
  case date mn mx =>
    rcases he with rfl | rfl
    · cases mx
      · exact .inl .none
      · exact .inr (.date _)
    · cases mn
      · exact .inl .none
      · exact .inr (.date _)
  case datetime mn mx u =>
    rcases he with rfl | rfl | rfl
    · cases mx
      · exact .inl .none
      · exact .inr (.datetime _)
    · cases mn
      · exact .inl .none
      · exact .inr (.datetime _)
    · exact .inl (.bool _)
  case definition => subst he; have h : _ = [] := h; subst h; exact .inl .none
  case email => rcases he with rfl | rfl | rfl | rfl | rfl <;> first | exact natV_kept _ | exact .inl (.bool _)
  case enumeration => subst he; exact .inl (.list h)
  case float => rcases he with rfl | rfl; exacts [floatV_kept fun y hy => h y (.inr hy), floatV_kept fun y hy => h y (.inl hy)]
  case integer => rcases he with rfl | rfl <;> exact intV_kept _
  case surrogate => subst he; have h : _ = [] := h; subst h; exact .inl .none
  case text => rcases he with rfl | rfl | rfl <;> first | exact natV_kept _ | exact .inl (.bool _)
  case time mn mx =>
    rcases he with rfl | rfl
    · cases mx
      · exact .inl .none
      · exact .inr (.time _)
    · cases mn
      · exact .inl .none
      · exact .inr (.time _)

theorem overOf_kept {α : Type} {name : Str} {text : α → Str} {x : Option α} : ∀ e ∈ overOf name text x, KeptOrLeftOut env e.2 := by
  intro e he
  cases x with
  | none => cases he
  | some x => simp only [overOf, List.mem_singleton] at he; subst he; exact .inl (.str _)

theorem leaf_over (k : Leaf) : ∀ e ∈ leafOver env k, KeptOrLeftOut env e.2 := by
  intro e he
  cases k <;> simp only [leafOver, List.mem_append, List.not_mem_nil] at he <;> exact he.elim (overOf_kept e) (overOf_kept e)

theorem describe_kept (verbose : Bool) (n : Nat) (f : Field) (hb : Everywhere env (Built env) f)
    (hd : Everywhere env (Describable env) f) (he : Everywhere env (Exchangeable env) f) : AllKept env (describe env verbose n) f := by
  induction n generalizing f with
  | zero => intro v h; cases h
  | succ n ih =>
    intro v h
    have hrec : ∀ g, Child env f g → AllKept env (describe env verbose n) g := fun g hg =>
      ih g (hb.child hg) (hd.child hg) (he.child hg)
    have hb0 := hb.here
    have hd0 := hd.here
    have he0 := he.here
    have hp := he0.parts
    replace h : describeStep env verbose (describe env verbose n) (process env n) f = .ok v := h
    cases f with
    | undef s => cases h
    | leaf c k => exact base_kept (he0.common c rfl) (leaf_table hp) (leaf_over k) h
    | sequence c item mn mx u =>
      have hc := he0.common c rfl
      simp only [describeStep, except_bind_eq_ok] at h
      obtain ⟨dv, h1, iv, h2, h3⟩ := h
      obtain ⟨-, hx⟩ := hd0.default
      have hdv : dv = c.default := by
        unfold descSeqDefault at h1
        rcases hx with hx | ⟨l, hx, hl, hfix⟩
        · rw [hx] at h1 ⊢
          simp only [Val.truthy, Bool.not_false, if_true, Except.ok.injEq] at h1; exact h1.symm
        · rw [hx] at h1 ⊢
          simp only [truthy_list hl, Bool.not_true, Bool.false_eq_true, if_false, except_bind_eq_ok, except_pure, Except.ok.injEq,
            iterate] at h1
          obtain ⟨_, rfl, l', h4, rfl⟩ := h1
          rw [descParts_fixed (fun v hv g w hg => hfix v hv g hg n w) h4]
      subst hdv
      refine base_kept hc ?_ ?_ h3
      · simp only [List.mem_cons, List.not_mem_nil, or_false]
        rintro e (rfl | rfl | rfl)
        exacts [natV_kept _, natV_kept _, .inl (.bool _)]
      · simp only [List.mem_cons, List.not_mem_nil, or_false]
        rintro e (rfl | rfl)
        exacts [.inl (child_kept h2 fun g hg => hrec g (.item hg)), hc.default]
    | map c key value req =>
      have hc := he0.common c rfl
      simp only [describeStep, except_bind_eq_ok] at h
      obtain ⟨dv, h1, vv, h2, kv, h0, h3⟩ := h
      obtain ⟨-, hx⟩ := hd0.default
      have hdv : dv = c.default := by
        unfold descMapDefault at h1
        rcases hx with hx | ⟨l, hx, hl, hfix⟩
        · rw [hx] at h1 ⊢
          simp only [Val.truthy, Bool.not_false, if_true, Except.ok.injEq] at h1; exact h1.symm
        · rw [hx] at h1 ⊢
          simp only [truthy_dict hl, Bool.not_true, Bool.false_eq_true, if_false, except_bind_eq_ok, except_pure, Except.ok.injEq] at h1
          obtain ⟨l', h4, rfl⟩ := h1
          rw [descPartsD_fixed (fun v hv g w hg => hfix v hv g hg n w) h4]
      subst hdv
      refine base_kept hc ?_ ?_ h3
      · simp only [List.mem_cons, List.not_mem_nil, or_false]
        rintro e rfl
        exact listV_kept hp
      · intro e he
        rcases List.mem_append.1 he with he | he
        · simp only [List.mem_cons, List.not_mem_nil, or_false] at he
          rcases he with rfl | rfl
          exacts [.inl (child_kept h2 fun g hg => hrec g (.value hg)), hc.default]
        · cases key with
          | none => simp only [descKey, Except.ok.injEq] at h0; subst h0; cases he
          | some k =>
            simp only [descKey] at h0
            cases hk : describe env verbose n k with
            | error e => rw [hk] at h0; cases h0
            | ok x =>
              rw [hk] at h0
              simp only [Except.map, Except.ok.injEq] at h0
              subst h0
              simp only [List.mem_singleton] at he
              subst he
              exact .inl (hrec k .key x hk)
    | tuple c values =>
      have hc := he0.common c rfl
      simp only [describeStep, except_bind_eq_ok] at h
      obtain ⟨vs, h2, dv, h1, h3⟩ := h
      obtain ⟨-, hx⟩ := hd0.default
      have hdv : dv = c.default := by
        unfold descTupDefault at h1
        rcases hx with hx | ⟨l, hx, hl, hlen, hfix⟩
        · rw [hx] at h1 ⊢
          simp only [Val.truthy, Bool.not_false, if_true, Except.ok.injEq] at h1; exact h1.symm
        · rcases hc.default with hk | hk <;> rw [hx] at hk <;> cases hk
      subst hdv
      refine base_kept hc (by simp) ?_ h3
      simp only [List.mem_cons, List.not_mem_nil, or_false]
      rintro e (rfl | rfl)
      exacts [.inl (.list (list_kept h2 fun f hf g hg => hrec g (.tuple hf hg))), hc.default]
    | union c fields =>
      have hc := he0.common c rfl
      simp only [describeStep, except_bind_eq_ok] at h
      obtain ⟨vs, h2, h3⟩ := h
      refine base_kept hc (by simp) ?_ h3
      simp only [List.mem_cons, List.not_mem_nil, or_false]
      rintro e rfl
      exact .inl (.list (list_kept h2 fun f hf g hg => hrec g (.union hf hg)))
    | «structure» c defn strict ko =>
      have hc := he0.common c rfl
      simp only [describeStep, except_bind_eq_ok] at h
      obtain ⟨m, h2, dv, h1, h3⟩ := h
      obtain ⟨-, hx⟩ := hd0.default
      have hdv := descStructDefault_fixed hx h1
      subst hdv
      refine base_kept hc ?_ ?_ h3
      · simp only [List.mem_cons, List.not_mem_nil, or_false]
        rintro e rfl
        exact .inl (.bool _)
      · simp only [List.mem_cons, List.not_mem_nil, or_false]
        rintro e (rfl | rfl | rfl)
        exacts [hc.default, .inl .none, .inl (defn_dict h2 hp fun e he g hg => hrec g (.member (n := e.1) he hg))]
    | poly c disc variants strict ko =>
      have hc := he0.common c rfl
      simp only [describeStep, except_bind_eq_ok] at h
      obtain ⟨m, h2, ov, h0, dv, h1, h3⟩ := h
      obtain ⟨-, hx⟩ := hd0.default
      have hparts := hd0.parts
      simp only [CarriedParts] at hparts
      obtain ⟨-, -, hpw, hvs⟩ := hparts
      have hdv : dv = c.default := by
        unfold descPolyDefault at h1
        rcases hx with hx | ⟨l, hx, hl, hfix⟩
        · rw [hx] at h1 ⊢
          simp only [Val.truthy, Bool.not_false, if_true, Except.ok.injEq] at h1; exact h1.symm
        · rw [hx] at h1 ⊢
          simp only [truthy_dict hl, Bool.not_true, Bool.false_eq_true, if_false] at h1
          split at h1
          · cases h1
          · split at h1
            · cases h1
            · next e he =>
              exact descStructDefault_fixed (.inr ⟨l, rfl, hl, hfix _ (List.mem_of_find?_eq_some he)⟩) h1
      subst hdv
      obtain ⟨ms, hm0, k1⟩ := descVariants_ok h2 (fun v hv => (hvs v hv).2.2.1) hpw (fun _ _ e he => nomatch he)
      rw [List.nil_append] at hm0
      subst hm0
      obtain ⟨d, rfl, k2, k3⟩ := variants_kept k1 hp fun v hv e he g hg => hrec g (.variant hv he hg)
      have hn : (d.map (·.1)).Nodup := by
        have h5 : (variants.map (·.1)).Nodup := List.pairwise_map.2 (hpw.imp_of_mem fun {a b} ha hb h => by
          intro hab
          obtain ⟨s, hs⟩ := (hp a ha).1
          rw [← hab, hs] at h
          simp [pyEq] at h)
        rw [← k2] at h5
        exact List.pairwise_map.2 ((List.pairwise_map.1 h5).imp fun h he => h (by rw [he]))
      refine base_kept hc ?_ ?_ h3
      · simp only [List.mem_cons, List.not_mem_nil, or_false]
        rintro e rfl
        exact .inl (.bool _)
      · simp only [List.mem_cons, List.not_mem_nil, or_false]
        rintro e (rfl | rfl | rfl)
        exacts [hc.default, .inl (hrec disc .disc ov h0), .inl (.dict hn k3)]

end Exch

/-- C90. The description of a schema can be written as JSON, and reading the text gives the very same description. -/
theorem C90_text (env : Env) (verbose : Bool) (n : Nat) (f : Field) (d : Val) (hb : Everywhere env (Built env) f)
    (hd : Everywhere env (Describable env) f) (he : Everywhere env (Exchangeable env) f) (h : describe env verbose n f = .ok d) :
    ∃ t, jsonSerialize env d = .ok t ∧ jsonUnserialize env t = .ok d :=
  C56_round_trip env (Exch.describe_kept verbose n f hb hd he d h).carries

/-- C90. The field that whoever receives the text reconstructs from it behaves the same. -/
theorem C90_exchanged (env : Env) (verbose : Bool) (n : Nat) (f : Field) (d : Val) (hb : Everywhere env (Built env) f)
    (hd : Everywhere env (Describable env) f) (he : Everywhere env (Exchangeable env) f) (h : describe env verbose n f = .ok d) :
    ∃ t f', jsonSerialize env d = .ok t ∧ (∀ m, d.depth ≤ m → (jsonUnserialize env t).bind (reconstruct env m) = .ok f') ∧
      (∀ k v ph ser anc, process env k f' v ph ser anc = process env k f v ph ser anc) ∧ f'.name = f.name := by
  obtain ⟨t, h1, h2⟩ := C90_text env verbose n f d hb hd he h
  obtain ⟨f', h3, h4, h5⟩ := C29_round_trip env verbose n f d hb hd h
  exact ⟨t, f', h1, fun m hm => by rw [h2]; exact h3 m hm, h4, h5⟩

/-- C90. Schemas with the same text behave the same. -/
theorem C90_same_text (env : Env) (verbose verbose' : Bool) (n n' : Nat) (f g : Field) (d d' : Val)
    (hb : Everywhere env (Built env) f) (hd : Everywhere env (Describable env) f) (he : Everywhere env (Exchangeable env) f)
    (hb' : Everywhere env (Built env) g) (hd' : Everywhere env (Describable env) g) (he' : Everywhere env (Exchangeable env) g)
    (h : describe env verbose n f = .ok d) (h' : describe env verbose' n' g = .ok d')
    (ht : jsonSerialize env d = jsonSerialize env d') :
    ∀ k v ph ser anc, process env k f v ph ser anc = process env k g v ph ser anc := by
  obtain ⟨t, f1, h1, h2, h3, -⟩ := C90_exchanged env verbose n f d hb hd he h
  obtain ⟨t', g1, h1', h2', h3', -⟩ := C90_exchanged env verbose' n' g d' hb' hd' he' h'
  rw [h1, h1'] at ht
  cases ht
  have e1 := h2 (d.depth + d'.depth) (by omega)
  have e2 := h2' (d.depth + d'.depth) (by omega)
  rw [e1] at e2
  cases e2
  intro k v ph ser anc
  rw [← h3, ← h3']

namespace DescribeEx

theorem keptCommon {env : Env} {c : Common} (h1 : c.constant = .none) (h2 : c.description = .none) (h0 : JsonKept env c.default)
    (h3 : c.title = .none) (h4 : c.notes = .none) (h7 : ∀ e ∈ c.aspects, JsonKept env e.2) : KeptCommon env c :=
  ⟨h1 ▸ .inl .none, h2 ▸ .inl .none, .inl h0, h3 ▸ .inl .none, h4 ▸ .inl .none, fun e he => .inl (h7 e he)⟩

theorem pet_exchangeable : Everywhere Ex.env (Exchangeable Ex.env) pet := by
  intro g hg
  rcases pet_children hg with rfl | rfl | rfl | rfl | rfl
  · refine ⟨fun c h => ?_, by simp [pet, KeptParts]⟩
    cases h
    refine keptCommon rfl rfl .none rfl rfl fun e he => ?_
    simp only [List.mem_cons, List.not_mem_nil, or_false] at he
    subst he
    exact .str _
  · exact ⟨fun c h => by cases h; exact keptCommon rfl rfl (.int _) rfl rfl (fun _ h => nomatch h), trivial⟩
  · exact ⟨fun c h => by cases h; exact keptCommon rfl rfl .none rfl rfl (fun _ h => nomatch h), trivial⟩
  · exact ⟨fun c h => by cases h; exact keptCommon rfl rfl .none rfl rfl (fun _ h => nomatch h), trivial⟩
  · refine ⟨fun c h => by cases h; exact keptCommon rfl rfl .none rfl rfl (fun _ h => nomatch h), fun v hv => ?_⟩
    simp only [List.mem_cons, List.not_mem_nil, or_false] at hv
    rcases hv with rfl | rfl <;> exact .str _

/-- The hypotheses hold of a structure with an integer, a sequence of dates and an enumeration. -/
example (verbose : Bool) : ∃ d t f', describe Ex.env verbose 3 pet = .ok d ∧ jsonSerialize Ex.env d = .ok t ∧
    (∀ m, d.depth ≤ m → (jsonUnserialize Ex.env t).bind (reconstruct Ex.env m) = .ok f') ∧
    ∀ k v ph ser anc, process Ex.env k f' v ph ser anc = process Ex.env k pet v ph ser anc := by
  obtain ⟨d, hd⟩ := C29_describes Ex.env verbose 3 pet
    pet_nesting
    pet_built pet_describable
    (by
      intro g hg
      rcases pet_children hg with rfl | rfl | rfl | rfl | rfl
      · intro e he
        simp only [List.mem_cons, List.not_mem_nil, or_false] at he
        rcases he with rfl | rfl | rfl <;> rfl
      all_goals first | exact trivial | rfl)
    (by
      intro g hg
      rcases pet_children hg with rfl | rfl | rfl | rfl | rfl
      · exact fun c h => by cases h; rfl
      · exact trivial
      · exact fun c h => by cases h; rfl
      · exact trivial
      · exact trivial)
  obtain ⟨t, f', h1, h2, h3, _⟩ := C90_exchanged Ex.env verbose 3 pet d pet_built pet_describable pet_exchangeable hd
  exact ⟨d, t, f', hd, h1, h2, h3⟩

end DescribeEx

/-- What the receiver of the JSON text of the description of `f` reconstructs. -/
def received (env : Env) (f : Field) : Except Exn Field := do
  let d ← describe env false 9 f
  let t ← jsonSerialize env d
  let d' ← jsonUnserialize env t
  reconstruct env 9 d'

/-- A structure with the identity 1. -/
def oneKind (id : Val) : Field := .poly {} (.leaf { name := some c!"kind", required := true } (.integer none none))
  [(id, [(c!"kind", .leaf { name := some c!"kind", required := true, constant := id } (.integer none none))])] true []

set_option maxRecDepth 100000 in
/-- Identities that are numbers become texts: the field that was sent accepts `{'kind': 1}`, the one received refuses
it. -/
theorem C90_identities : process Ex.env 3 (oneKind (.int 1)) (.dict [(.str c!"kind", .int 1)]) .inbound false [] =
      .ok (.dict [(.str c!"kind", .int 1)]) ∧
    ∃ g, received Ex.env (oneKind (.int 1)) = .ok g ∧
      ∀ w, process Ex.env 3 g (.dict [(.str c!"kind", .int 1)]) .inbound false [] ≠ .ok w :=
  ⟨rfl, _, rfl, fun w h => by cases h⟩

set_option maxRecDepth 100000 in
/-- The default of a Tuple becomes a list. -/
theorem C90_tuple_default : received Ex.env (.tuple { default := .tuple [.int 1] } [.leaf {} (.integer none none)]) =
    .ok (.tuple { default := .list [.int 1], aspects := [(c!"structural", .bool true)] } [.leaf {} (.integer none none)]) := rfl

end Scheme
