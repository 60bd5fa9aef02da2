import Verif.Spec.ElementIO
import Verif.Props.Element
import Verif.Props.Extract
import Verif.Props.Instantiate
import Verif.Props.FieldFormat
import Verif.Props.Access

/-! C65: reading what an Element wrote. -/

namespace Scheme

namespace ElIO

variable {env : Env} {o : Outer}

theorem hookless_noExtractor {f : Field} (h : Hookless f) : NoExtractor f := by
  obtain ⟨c, h1, h2, -⟩ := h
  intro c' hc'
  rw [h1] at hc'; cases hc'; exact h2

theorem hookless_undef {f : Field} (h : Hookless f) : ∀ s, f ≠ .undef s := by
  rintro s rfl
  obtain ⟨c, h1, -⟩ := h
  cases h1

theorem given_of_not_mem {d : List (Val × Val)} {name : Str} (h : Val.str name ∉ d.map (·.1)) : given d name = none := by
  cases hg : given d name with
  | none => rfl
  | some v => exact absurd (List.mem_map.2 ⟨_, mem_of_given hg, rfl⟩) h

theorem extractChild_some {rec : Ext} {f g : Field} {v : Val} (h : resolve env f = some g) : extractChild env rec f v = rec g v := by
  unfold extractChild; rw [h]

theorem nodup_str {defn : List (Str × Field)} (h : (defn.map (·.1)).Nodup) : (defn.map fun m => Val.str m.1).Nodup := by
  have : (defn.map fun m => Val.str m.1) = (defn.map (·.1)).map Val.str := by rw [List.map_map]; rfl
  rw [this]
  exact List.pairwise_map.2 (h.imp fun hne he => hne (Val.str.inj he))

theorem given_filter {d : List (Val × Val)} (hn : ∀ e ∈ d, e.2 ≠ .none) (name : Str) :
    given d name = (given d name).filter fun v => !v.isNone := by
  cases hg : given d name with
  | none => rfl
  | some v =>
    have hv := hn _ (mem_of_given hg)
    have : v.isNone = false := by
      cases hx : v.isNone with
      | false => rfl
      | true => exact absurd ((isNone_iff _).1 hx) hv
    simp [Option.filter, this]

theorem extractMembers_whole {rec : Ext} {D : List (Val × Val)} {defn : List (Str × Field)} {d : List (Val × Val)}
    (hnd : (defn.map (·.1)).Nodup) (hsub : (d.map (·.1)).Sublist (defn.map fun m => .str m.1))
    (hg : ∀ m ∈ defn, given d m.1 = (given D m.1).filter fun v => !v.isNone)
    (hr : ∀ m ∈ defn, ∀ x, given d m.1 = some x → ∃ g, resolve env m.2 = some g ∧ rec g x = .ok x) :
    extractMembers env o rec (.dict D) defn = .ok d := by
  induction defn generalizing d with
  | nil =>
    rw [List.map_nil, List.sublist_nil, List.map_eq_nil_iff] at hsub
    subst hsub; rfl
  | cons m r ih =>
    obtain ⟨name, f⟩ := m
    have hndv := nodup_str hnd
    rw [List.map_cons, List.nodup_cons] at hnd hndv
    have hval : memberValue o (.dict D) (.str name) = .ok (given d name) := by
      have h1 := hg (name, f) (by simp)
      simp only at h1
      rw [h1, ← dictGet_str_eq_given]
      unfold memberValue getMember
      cases hq : dictGet D (.str name) with
      | none => simp only [hq]; rfl
      | some v => cases v <;> simp only [hq] <;> rfl
    rw [List.map_cons] at hsub
    cases hd : d with
    | nil =>
      subst hd
      have : given [] name = none := rfl
      rw [this] at hval
      simp only [extractMembers, hval, except_bind_ok]
      exact ih hnd.2 (List.nil_sublist _) (fun m hm => hg m (List.mem_cons_of_mem _ hm)) (by simp [given])
    | cons e t =>
      rw [← hd]
      by_cases hk : e.1 = .str name
      · obtain ⟨k, v⟩ := e
        simp only at hk
        subst hk
        subst hd
        have hgv : given ((Val.str name, v) :: t) name = some v := by rw [given_cons_str]; simp
        rw [hgv] at hval
        obtain ⟨g, hg1, hg2⟩ := hr (name, f) (by simp) v hgv
        have hsub' : (t.map (·.1)).Sublist (r.map fun m => .str m.1) := by
          rw [List.map_cons] at hsub
          exact List.Sublist.of_cons_cons hsub
        have hother : ∀ m ∈ r, given ((Val.str name, v) :: t) m.1 = given t m.1 := by
          intro m hm
          rw [given_cons_str, if_neg]
          intro h
          exact hnd.1 (h ▸ List.mem_map.2 ⟨m, hm, rfl⟩)
        have hrest := ih (d := t) hnd.2 hsub'
          (fun m hm => by rw [← hg m (List.mem_cons_of_mem _ hm), hother m hm])
          (fun m hm x hx => hr m (List.mem_cons_of_mem _ hm) x (by rw [hother m hm]; exact hx))
        simp only [extractMembers, hval, except_bind_ok, extractChild_some hg1, hg2, notExcluded, hrest, except_pure]
      · have hsub' : (d.map (·.1)).Sublist (r.map fun m => .str m.1) := by
          obtain ⟨k, v⟩ := e
          simp only at hk
          rw [hd, List.map_cons] at hsub ⊢
          simp only at hsub ⊢
          cases hsub with
          | cons _ h => exact h
          | cons_cons _ h => exact absurd rfl hk
        have hnm : Val.str name ∉ d.map (·.1) := fun h => hndv.1 (hsub'.subset h)
        rw [given_of_not_mem hnm] at hval
        simp only [extractMembers, hval, except_bind_ok]
        exact ih hnd.2 hsub' (fun m hm => hg m (List.mem_cons_of_mem _ hm))
          (fun m hm => hr m (List.mem_cons_of_mem _ hm))

theorem extractItems_whole {rec : Ext} {item : Field} {l : List Val}
    (hr : ∀ x ∈ l, ∃ g, resolve env item = some g ∧ rec g x = .ok x) : extractItems env rec item l = .ok l := by
  induction l with
  | nil => rfl
  | cons v r ih =>
    obtain ⟨g, h1, h2⟩ := hr v (by simp)
    simp only [extractItems, extractChild_some h1, h2, notExcluded, except_bind_ok, ih fun x hx => hr x (List.mem_cons_of_mem _ hx), except_pure]

theorem extractEntries_whole {rec : Ext} {value : Field} {l : List (Val × Val)}
    (hr : ∀ e ∈ l, ∃ g, resolve env value = some g ∧ rec g e.2 = .ok e.2) : extractEntries env rec value l = .ok l := by
  induction l with
  | nil => rfl
  | cons v r ih =>
    obtain ⟨k, v⟩ := v
    obtain ⟨g, h1, h2⟩ := hr (k, v) (by simp)
    simp only at h2
    simp only [extractEntries, extractChild_some h1, h2, notExcluded, except_bind_ok, ih fun x hx => hr x (List.mem_cons_of_mem _ hx), except_pure]

theorem extractSlots_whole {rec : Ext} {fs : List Field} {l : List Val} (hl : l.length = fs.length)
    (hr : ∀ p ∈ fs.zip l, ∃ g, resolve env p.1 = some g ∧ rec g p.2 = .ok p.2) : extractSlots env rec fs l = .ok l := by
  induction fs generalizing l with
  | nil => cases l with
    | nil => rfl
    | cons => cases hl
  | cons f fs ih =>
    cases l with
    | nil => cases hl
    | cons v r =>
      obtain ⟨g, h1, h2⟩ := hr (f, v) (by simp)
      simp only at h1 h2
      simp only [extractSlots, extractChild_some h1, h2, notExcluded, except_bind_ok,
        ih (l := r) (by simpa using hl) fun x hx => hr x (by rw [List.zip_cons_cons]; exact List.mem_cons_of_mem _ hx), except_pure]

theorem depth_given {d : List (Val × Val)} {name : Str} {x : Val} (h : given d name = some x) : x.depth < (Val.dict d).depth := by
  have h' := (depthD_mem (mem_of_given h)).2
  simp only at h'
  simp only [Val.depth]; omega

theorem extract_whole {f : Field} {v : Val} (h : Whole env f v) : ∀ n, v.depth < n → extract env o true [] n f v = .ok v := by
  induction h with
  | null h hu =>
    intro n hn
    cases n with
    | zero => omega
    | succ n => exact extract_succ_of (hookless_noExtractor h) (hookless_undef h) (excluded_nil o _) (.inl ⟨rfl, rfl⟩)
  | @leaf c k v h =>
    intro n hn
    cases n with
    | zero => omega
    | succ n =>
      refine extract_succ_of (hookless_noExtractor h) (hookless_undef h) (excluded_nil o _) ?_
      by_cases hv : v = .none
      · exact .inl ⟨hv, hv⟩
      · exact .inr ⟨hv, rfl⟩
  | @sequence c item mn mx u l h hr _ ih =>
    intro n hn
    cases n with
    | zero => omega
    | succ n =>
      refine extract_succ_of (hookless_noExtractor h) (hookless_undef h) (excluded_nil o _) (.inr ⟨by simp, ?_⟩)
      simp only [extractBody, extractSequence]
      rw [extractItems_whole]
      · rfl
      · intro x hx
        obtain ⟨g, h1⟩ := hr (List.ne_nil_of_mem hx)
        refine ⟨g, h1, ih x hx g h1 n ?_⟩
        have := depthL_mem hx
        simp only [Val.depth] at hn; omega
  | @map c key value req d h hr _ ih =>
    intro n hn
    cases n with
    | zero => omega
    | succ n =>
      refine extract_succ_of (hookless_noExtractor h) (hookless_undef h) (excluded_nil o _) (.inr ⟨by simp, ?_⟩)
      simp only [extractBody, extractMap]
      rw [extractEntries_whole]
      · rfl
      · intro x hx
        obtain ⟨g, h1⟩ := hr (List.ne_nil_of_mem hx)
        refine ⟨g, h1, ih x hx g h1 n ?_⟩
        have := (depthD_mem hx).2
        simp only [Val.depth] at hn; omega
  | @tuple c fs l h hl hr _ ih =>
    intro n hn
    cases n with
    | zero => omega
    | succ n =>
      refine extract_succ_of (hookless_noExtractor h) (hookless_undef h) (excluded_nil o _) (.inr ⟨by simp, ?_⟩)
      simp only [extractBody, extractTuple]
      rw [extractSlots_whole hl]
      · rfl
      · intro x hx
        obtain ⟨g, h1⟩ := hr x hx
        refine ⟨g, h1, ih x hx g h1 n ?_⟩
        have := depthL_mem (List.of_mem_zip hx).2
        simp only [Val.depth] at hn; omega
  | @«structure» c defn s ko d h hnd hsub hno hr _ ih =>
    intro n hn
    cases n with
    | zero => omega
    | succ n =>
      refine extract_succ_of (hookless_noExtractor h) (hookless_undef h) (excluded_nil o _) (.inr ⟨by simp, ?_⟩)
      simp only [extractBody, extractPlain]
      rw [extractMembers_whole hnd hsub (fun _ _ => given_filter hno _)]
      · rfl
      · intro m hm x hx
        obtain ⟨g, h1⟩ := hr m hm x hx
        have := depth_given hx
        exact ⟨g, h1, ih m hm x hx g h1 n (by omega)⟩
  | @poly c disc vs s ko d id defn h hid ht hh hv hnd hsub hno hr _ ih =>
    intro n hn
    cases n with
    | zero => omega
    | succ n =>
      refine extract_succ_of (hookless_noExtractor h) (hookless_undef h) (excluded_nil o _) (.inr ⟨by simp, ?_⟩)
      have hm := extractMembers_whole (o := o) (rec := extract env o true [] n) (D := d) hnd hsub (fun _ _ => given_filter hno _) (by
        intro m hm x hx
        obtain ⟨g, h1⟩ := hr m hm x hx
        have := depth_given hx
        exact ⟨g, h1, ih m hm x hx g h1 n (by omega)⟩)
      have hd : dictGet d (.str (disc.name.getD [])) = some id := by rw [dictGet_str_eq_given]; exact hid
      simp only [extractBody, extractPoly, getMember, hd, ht, if_true, variantAt, hh, ← variantIn_eq, hv, except_bind_ok, hm]
      rfl

theorem instOwn_hookless {f : Field} {v : Val} {key : Option Val} (h : Hookless f) : instOwn o f v key = .ok v := by
  obtain ⟨c, h1, -, h2⟩ := h
  unfold instOwn
  rw [h1, Option.bind_some, h2]

theorem inst_succ_of {f : Field} {v : Val} {n : Nat} {key : Option Val} (h : Hookless f) (hu : ∀ c fs, f ≠ .union c fs)
    (hb : v ≠ .none → instBody env (instantiate env o n) f v = .ok v) : instantiate env o (n + 1) f v key = .ok v := by
  have hs : instantiate env o (n + 1) f v key = if v.isNone then .ok .none
      else (instBody env (instantiate env o n) f v >>= fun w => instOwn o f w key) := by
    cases f with
    | undef s => exact absurd rfl (hookless_undef h s)
    | union c fs => exact absurd rfl (hu c fs)
    | _ => rfl
  rw [hs]
  by_cases hv : v = .none
  · subst hv; rfl
  · have hvn : v.isNone = false := by
      cases hx : v.isNone with
      | false => rfl
      | true => exact absurd ((isNone_iff _).1 hx) hv
    rw [hvn, hb hv]
    exact instOwn_hookless h

theorem instChild_some {rec : Inst} {f g : Field} {v : Val} {key : Option Val} (h : resolve env f = some g) :
    instChild env rec f v key = rec g v key := by
  unfold instChild; rw [h]

theorem instItems_whole {rec : Inst} {item : Field} {l : List Val}
    (hr : ∀ x ∈ l, ∃ g, resolve env item = some g ∧ ∀ k, rec g x k = .ok x) : instItems env rec item l = .ok l := by
  induction l with
  | nil => rfl
  | cons v r ih =>
    obtain ⟨g, h1, h2⟩ := hr v (by simp)
    simp only [instItems, instChild_some h1, h2, except_bind_ok, ih fun x hx => hr x (List.mem_cons_of_mem _ hx), except_pure]

theorem instEntries_whole {rec : Inst} {value : Field} {l : List (Val × Val)}
    (hr : ∀ e ∈ l, ∃ g, resolve env value = some g ∧ ∀ k, rec g e.2 k = .ok e.2) : instEntries env rec value l = .ok l := by
  induction l with
  | nil => rfl
  | cons v r ih =>
    obtain ⟨k, v⟩ := v
    obtain ⟨g, h1, h2⟩ := hr (k, v) (by simp)
    simp only at h2
    simp only [instEntries, instChild_some h1, h2, except_bind_ok, ih fun x hx => hr x (List.mem_cons_of_mem _ hx), except_pure]

theorem instSlots_whole {rec : Inst} {fs : List Field} {pre l : List Val} (hl : l.length = fs.length)
    (hr : ∀ p ∈ fs.zip l, ∃ g, resolve env p.1 = some g ∧ ∀ k, rec g p.2 k = .ok p.2) :
    instSlots env rec (.tuple (pre ++ l)) pre.length fs = .ok l := by
  induction fs generalizing l pre with
  | nil => cases l with
    | nil => rfl
    | cons => cases hl
  | cons f fs ih =>
    cases l with
    | nil => cases hl
    | cons v r =>
      obtain ⟨g, h1, h2⟩ := hr (f, v) (by simp)
      simp only at h1 h2
      have hi : indexAt (.tuple (pre ++ v :: r)) pre.length = .ok v := by simp [indexAt]
      have hrest := ih (pre := pre ++ [v]) (l := r) (by simpa using hl)
        fun x hx => hr x (by rw [List.zip_cons_cons]; exact List.mem_cons_of_mem _ hx)
      rw [List.append_assoc, List.singleton_append, List.length_append] at hrest
      simp only [instSlots, hi, instChild_some h1, h2, except_bind_ok]
      erw [hrest]
      rfl

theorem lookup_of_str {defn : List (Str × Field)} {k : Val} (h : k ∈ defn.map fun m => Val.str m.1) :
    ∃ m f, k = .str m ∧ defn.lookup m = some f ∧ (m, f) ∈ defn := by
  obtain ⟨m, hm, rfl⟩ := List.mem_map.1 h
  cases hl : defn.lookup m.1 with
  | none =>
    rw [List.lookup_eq_none_iff] at hl
    exact absurd (hl m hm) (by simp)
  | some f => exact ⟨m.1, f, rfl, hl, ST.mem_of_lookup hl⟩

theorem instMembers_whole {rec : Inst} {defn : List (Str × Field)} {d : List (Val × Val)}
    (hk : ∀ e ∈ d, e.1 ∈ defn.map fun m => Val.str m.1)
    (hr : ∀ m ∈ defn, ∀ e ∈ d, e.1 = .str m.1 → ∃ g, resolve env m.2 = some g ∧ ∀ k, rec g e.2 k = .ok e.2) :
    instMembers env rec defn d = .ok d := by
  induction d with
  | nil => rfl
  | cons e r ih =>
    obtain ⟨k, v⟩ := e
    obtain ⟨m, f, rfl, hl, hm⟩ := lookup_of_str (hk (k, v) (by simp))
    obtain ⟨g, h1, h2⟩ := hr (m, f) hm (.str m, v) (by simp) rfl
    simp only at h1 h2
    simp only [instMembers, fieldAt, hl, instChild_some h1, h2, except_bind_ok,
      ih (fun e he => hk e (List.mem_cons_of_mem _ he)) (fun m hm e he => hr m hm e (List.mem_cons_of_mem _ he)), except_pure]

theorem instantiate_whole {f : Field} {v : Val} (h : Whole env f v) :
    ∀ n key, v.depth < n → instantiate env o n f v key = .ok v := by
  induction h with
  | null h hu =>
    intro n key hn
    cases n with
    | zero => omega
    | succ n => exact inst_succ_of h hu (fun h => absurd rfl h)
  | @leaf c k v h =>
    intro n key hn
    cases n with
    | zero => omega
    | succ n => exact inst_succ_of h (by simp) fun _ => rfl
  | @sequence c item mn mx u l h hr _ ih =>
    intro n key hn
    cases n with
    | zero => omega
    | succ n =>
      refine inst_succ_of h (by simp) fun _ => ?_
      simp only [instBody, iterate, except_bind_ok]
      rw [instItems_whole]
      · rfl
      · intro x hx
        obtain ⟨g, h1⟩ := hr (List.ne_nil_of_mem hx)
        refine ⟨g, h1, fun k => ih x hx g h1 n k ?_⟩
        have := depthL_mem hx
        simp only [Val.depth] at hn; omega
  | @map c key value req d h hr _ ih =>
    intro n key hn
    cases n with
    | zero => omega
    | succ n =>
      refine inst_succ_of h (by simp) fun _ => ?_
      simp only [instBody]
      rw [instEntries_whole]
      · rfl
      · intro x hx
        obtain ⟨g, h1⟩ := hr (List.ne_nil_of_mem hx)
        refine ⟨g, h1, fun k => ih x hx g h1 n k ?_⟩
        have := (depthD_mem hx).2
        simp only [Val.depth] at hn; omega
  | @tuple c fs l h hl hr _ ih =>
    intro n key hn
    cases n with
    | zero => omega
    | succ n =>
      refine inst_succ_of h (by simp) fun _ => ?_
      simp only [instBody]
      have := instSlots_whole (env := env) (rec := instantiate env o n) (pre := []) hl (by
        intro x hx
        obtain ⟨g, h1⟩ := hr x hx
        refine ⟨g, h1, fun k => ih x hx g h1 n k ?_⟩
        have := depthL_mem (List.of_mem_zip hx).2
        simp only [Val.depth] at hn; omega)
      rw [List.nil_append] at this
      rw [show (0 : Nat) = ([] : List Val).length from rfl, this]
      rfl
  | @«structure» c defn s ko d h hnd hsub hno hr _ ih =>
    intro n key hn
    cases n with
    | zero => omega
    | succ n =>
      refine inst_succ_of h (by simp) fun _ => ?_
      simp only [instBody]
      rw [instMembers_whole (fun e he => hsub.subset (List.mem_map.2 ⟨e, he, rfl⟩))]
      · rfl
      · intro m hm e he hem
        have hx : given d m.1 = some e.2 := given_of_mem ((nodup_str hnd).sublist hsub) (hem ▸ he)
        obtain ⟨g, h1⟩ := hr m hm _ hx
        have := depth_given hx
        exact ⟨g, h1, fun k => ih m hm _ hx g h1 n k (by omega)⟩
  | @poly c disc vs s ko d id defn h hid ht hh hv hnd hsub hno hr _ ih =>
    intro n key hn
    cases n with
    | zero => omega
    | succ n =>
      refine inst_succ_of h (by simp) fun _ => ?_
      have hm := instMembers_whole (env := env) (rec := instantiate env o n) (defn := defn) (d := d)
        (fun e he => hsub.subset (List.mem_map.2 ⟨e, he, rfl⟩)) (by
        intro m hm e he hem
        have hx : given d m.1 = some e.2 := given_of_mem ((nodup_str hnd).sublist hsub) (hem ▸ he)
        obtain ⟨g, h1⟩ := hr m hm _ hx
        have := depth_given hx
        exact ⟨g, h1, fun k => ih m hm _ hx g h1 n k (by omega)⟩)
      have hd : dictGet d (.str (disc.name.getD [])) = some id := by rw [dictGet_str_eq_given]; exact hid
      simp only [instBody, hd, ht, if_true, variantAt, hh, ← variantIn_eq, hv, except_bind_ok, hm]
      rfl

/-- The value an instance has under a name, if it is not None. -/
def held (e : Elem) (name : Str) : Option Val := (e.attrs.lookup name).filter fun v => !v.isNone

theorem held_ne {e : Elem} {name : Str} {v : Val} (h : held e name = some v) : v ≠ .none := by
  unfold held at h
  rw [Option.filter_eq_some_iff] at h
  rintro rfl
  simp [Val.isNone] at h

theorem given_extract (e : Elem) (name : Str) : given e.extract name = e.attrs.lookup name := by
  unfold Elem.extract
  induction e.attrs with
  | nil => rfl
  | cons a r ih =>
    obtain ⟨k, v⟩ := a
    rw [List.map_cons, given_cons_str, List.lookup_cons]
    by_cases hk : k = name
    · subst hk; simp
    · have : (name == k) = false := by simpa using fun h => hk h.symm
      rw [this, if_neg hk]; exact ih

/-- The values an instance has, None left out. -/
def kept (e : Elem) (defn : List (Str × Field)) : List (Val × Val) := slotDict (defn.map fun m => (m.1, held e m.1))

theorem given_kept {e : Elem} {defn : List (Str × Field)} (hnd : (defn.map (·.1)).Nodup) {m : Str × Field} (hm : m ∈ defn) :
    given (kept e defn) m.1 = held e m.1 := by
  have := given_slotDict (slots := defn.map fun m => (m.1, held e m.1)) (by rw [List.map_map]; exact hnd)
    (List.mem_map.2 ⟨m, hm, rfl⟩)
  exact this

theorem kept_keys (e : Elem) (defn : List (Str × Field)) : ((kept e defn).map (·.1)).Sublist (defn.map fun m => Val.str m.1) := by
  unfold kept
  induction defn with
  | nil => exact .slnil
  | cons m r ih =>
    unfold slotDict at ih ⊢
    rw [List.map_cons, List.map_cons]
    cases hh : held e m.1 with
    | none => simp only [List.filterMap_cons, hh, Option.map_none]; exact .cons _ ih
    | some v => simp only [List.filterMap_cons, hh, Option.map_some, List.map_cons]; exact .cons_cons _ ih

theorem extractMembers_kept {e : Elem} {n : Nat} {defn : List (Str × Field)} (hnd : (defn.map (·.1)).Nodup)
    (hw : ∀ m ∈ defn, ∀ v, held e m.1 = some v → ∃ g, resolve env m.2 = some g ∧ Whole env g v ∧ v.depth < n) :
    extractMembers env o (extract env o true [] n) (.dict e.extract) defn = .ok (kept e defn) := by
  refine extractMembers_whole hnd (kept_keys e defn) (fun m hm => ?_) (fun m hm x hx => ?_)
  · rw [given_kept hnd hm, given_extract]; rfl
  · rw [given_kept hnd hm] at hx
    obtain ⟨g, h1, h2, h3⟩ := hw m hm x hx
    exact ⟨g, h1, extract_whole h2 n h3⟩

/-- What a slot holds after reading: the value, or else the default unless it is None. -/
def refilled (e : Elem) (name : Str) (c : Common) : Option Val :=
  (held e name).or (if c.default.isNone then none else some c.default)

/-- A value its field accepts as it is, and an Element can keep. -/
structure Keeps (env : Env) (n : Nat) (g : Field) (v : Val) : Prop where
  fixed : ∀ anc, process env n g v .inbound false anc = .ok v
  whole : Whole env g v
  depth : v.depth < n

/-- Every attribute that is not None is kept by its member, and so is the default of a member whose attribute is None. -/
def Kept (env : Env) (n : Nat) (defn : List (Str × Field)) (e : Elem) : Prop :=
  ∀ m ∈ defn, ∃ g c, resolve env m.2 = some g ∧ g.common? = some c ∧
    ∀ v, refilled e m.1 c = some v → Keeps env n g v

theorem slot_back {n : Nat} {defn : List (Str × Field)} {e : Elem} (hnd : (defn.map (·.1)).Nodup) (hk : Kept env n defn e)
    {name : Str} {r : Option Val} {anc anc' : List Str} (h : SlotOk env n defn (kept e defn) .outbound true false anc name r) :
    ∃ g c, Declares env defn name g c ∧ SlotOk env n defn (kept e defn) .inbound false false anc' name (refilled e name c) := by
  obtain ⟨g, c, hd, hmiss, -⟩ := h
  obtain ⟨f, hl, hres, hc⟩ := hd
  have hm : (name, f) ∈ defn := ST.mem_of_lookup hl
  obtain ⟨g', c', hres', hc', hkv⟩ := hk (name, f) hm
  simp only at hres' hkv
  rw [hres] at hres'; cases hres'
  rw [hc] at hc'; cases hc'
  refine ⟨g, c, ⟨f, hl, hres, hc⟩, g, c, ⟨f, hl, hres, hc⟩, ?_, ?_⟩
  · rintro ⟨h1, h2, h3, h4⟩
    exact hmiss ⟨h1, h2, h3, by rw [h1]; rfl⟩
  · have hg := given_kept (e := e) hnd hm
    simp only at hg
    rw [hg]
    unfold refilled at hkv ⊢
    cases hh : held e name with
    | some v =>
      have hv := held_ne hh
      have hvn : v.isNone = false := by
        cases hx : v.isNone with
        | false => rfl
        | true => exact absurd ((isNone_iff _).1 hx) hv
      refine .inr ⟨v, v, ?_, rfl, (hkv v (by rw [hh]; rfl)).fixed _⟩
      rw [memberInput_given, hvn]; simp
    | none =>
      rw [memberInput_absent]
      cases hx : c.default.isNone with
      | true => exact .inl ⟨by simp, rfl⟩
      | false =>
        refine .inr ⟨c.default, c.default, by simp, rfl, (hkv _ ?_).fixed _⟩
        rw [hh, hx]; rfl

/-- The slots read back. -/
theorem slots_back {n : Nat} {defn : List (Str × Field)} {e : Elem} (hnd : (defn.map (·.1)).Nodup) (hk : Kept env n defn e)
    {anc anc' : List Str} {slots : List (Str × Option Val)}
    (h : ∀ x ∈ slots, SlotOk env n defn (kept e defn) .outbound true false anc x.1 x.2) :
    ∃ back : List (Str × Option Val), back.map (·.1) = slots.map (·.1) ∧
      (∀ x ∈ back, SlotOk env n defn (kept e defn) .inbound false false anc' x.1 x.2) ∧
      ∀ x ∈ back, ∃ g c, Declares env defn x.1 g c ∧ x.2 = refilled e x.1 c := by
  induction slots with
  | nil => exact ⟨[], rfl, by simp, by simp⟩
  | cons x r ih =>
    obtain ⟨back, h1, h2, h3⟩ := ih fun y hy => h y (List.mem_cons_of_mem _ hy)
    obtain ⟨g, c, h4, h5⟩ := slot_back hnd hk (anc' := anc') (h x (by simp))
    refine ⟨(x.1, refilled e x.1 c) :: back, by simp [h1], ?_, ?_⟩
    · intro y hy
      rcases List.mem_cons.1 hy with rfl | hy
      · exact h5
      · exact h2 y hy
    · intro y hy
      rcases List.mem_cons.1 hy with rfl | hy
      · exact ⟨g, c, h4, rfl⟩
      · exact h3 y hy

theorem keywords_slots (slots : List (Str × Option Val)) : ∃ params, keywords (slotDict slots) = .ok params := by
  induction slots with
  | nil => exact ⟨[], rfl⟩
  | cons x r ih =>
    obtain ⟨k, v⟩ := x
    obtain ⟨ps, hp⟩ := ih
    cases v with
    | none => exact ⟨ps, hp⟩
    | some v =>
      refine ⟨(k, v) :: ps, ?_⟩
      show keywords ((.str k, v) :: slotDict r) = _
      simp only [keywords, hp, except_bind_ok, except_pure]

/-- Instantiating the slots read back leaves them alone. -/
theorem inst_back {n : Nat} {defn : List (Str × Field)} {e : Elem} (hnd : (defn.map (·.1)).Nodup)
    (hk : ∀ m ∈ defn, ∃ g c, resolve env m.2 = some g ∧ g.common? = some c ∧
      ∀ v, refilled e m.1 c = some v → Whole env g v ∧ v.depth < n)
    {back : List (Str × Option Val)} (hbn : (back.map (·.1)).Nodup)
    (h : ∀ x ∈ back, ∃ g c, Declares env defn x.1 g c ∧ x.2 = refilled e x.1 c) :
    instMembers env (instantiate env o n) defn (slotDict back) = .ok (slotDict back) := by
  have hmem : ∀ en ∈ slotDict back, ∃ x ∈ back, ∃ v, x.2 = some v ∧ en = (.str x.1, v) := by
    intro en hen
    obtain ⟨x, hx, hxe⟩ := List.mem_filterMap.1 hen
    rw [Option.map_eq_some_iff] at hxe
    obtain ⟨v, hv, rfl⟩ := hxe
    exact ⟨x, hx, v, hv, rfl⟩
  refine instMembers_whole (fun en hen => ?_) (fun m hm en hen hem => ?_)
  · obtain ⟨x, hx, v, hv, rfl⟩ := hmem en hen
    obtain ⟨g, c, ⟨f, hl, -, -⟩, -⟩ := h x hx
    exact List.mem_map.2 ⟨_, ST.mem_of_lookup hl, rfl⟩
  · obtain ⟨x, hx, v, hv, rfl⟩ := hmem en hen
    have hem' : x.1 = m.1 := Val.str.inj hem
    obtain ⟨g, c, ⟨f, hl, hres, hc⟩, hxr⟩ := h x hx
    rw [hem', lookup_of_mem hnd hm] at hl
    obtain ⟨g', c', h1, h2, h3⟩ := hk m hm
    rw [Option.some.inj hl, hres] at h1; cases h1
    rw [hc] at h2; cases h2
    have := h3 v (by rw [← hem', ← hxr, hv])
    exact ⟨g, by rw [Option.some.inj hl]; exact hres, fun k => instantiate_whole this.1 n k this.2⟩

theorem lookup_of_mem_attrs {l : List (Str × Val)} {p : Str × Val} (hnd : (l.map (·.1)).Nodup) (hp : p ∈ l) :
    l.lookup p.1 = some p.2 := by
  induction l with
  | nil => cases hp
  | cons a r ih =>
    rw [List.map_cons, List.nodup_cons] at hnd
    rw [List.lookup_cons]
    rcases List.mem_cons.1 hp with rfl | hp
    · simp
    · have : (p.1 == a.1) = false := by
        simp only [beq_eq_false_iff_ne, ne_eq]
        exact fun h => hnd.1 (h ▸ List.mem_map.2 ⟨p, hp, rfl⟩)
      rw [this]; exact ih hnd.2 hp

/-- The attributes after writing and reading: those that were None have the member's default, the others are unchanged. -/
def Refilled (env : Env) (defn : List (Str × Field)) (e : Elem) : List (Str × Val) → Prop :=
  All2 (fun (m : Str × Field) (a : Str × Val) => a.1 = m.1 ∧ ∃ default, MemberDefault env m.2 default ∧
    a.2 = (held e m.1).getD default) defn

end ElIO

open ElIO

/-- Without a pre-existing attribute there is nothing to keep; with one, it stays. -/
theorem ElIO.refilled_of {env : Env} {n : Nat} {defn : List (Str × Field)} {e : Elem} (hk : Kept env n defn e)
    {back : List (Str × Option Val)} (hbn : (back.map (·.1)).Nodup) (hall : ∀ m ∈ defn, m.1 ∈ back.map (·.1))
    (hnd : (defn.map (·.1)).Nodup)
    (h : ∀ x ∈ back, ∃ g c, Declares env defn x.1 g c ∧ x.2 = refilled e x.1 c) {params attrs : List (Str × Val)}
    (hp : keywords (slotDict back) = .ok params) (hf : Filled env params defn attrs) : Refilled env defn e attrs := by
  have key : ∀ (l : List (Str × Field)) (as : List (Str × Val)), (∀ m ∈ l, m ∈ defn) → Filled env params l as → Refilled env l e as := by
    intro l as hl hf
    unfold Filled at hf
    unfold Refilled
    induction hf with
    | nil => exact .nil
    | cons h1 _ ih =>
      rename_i m a ms as' _
      refine .cons ?_ (ih fun m hm => hl m (List.mem_cons_of_mem _ hm))
      obtain ⟨e1, dv, e2, e3⟩ := h1
      refine ⟨e1, dv, e2, ?_⟩
      have hm := hl m (by simp)
      obtain ⟨x, hx, hxm⟩ := List.mem_map.1 (hall m hm)
      obtain ⟨g, c, ⟨f, hl', hres, hc⟩, hxr⟩ := h x hx
      rw [hxm, lookup_of_mem hnd hm] at hl'
      cases hl'
      rw [e3, keywords_given hp, ← hxm, given_slotDict hbn hx, hxr, hxm]
      unfold refilled
      cases hh : held e m.1 with
      | some v => rfl
      | none =>
        obtain ⟨g', c', h1, h2, h3⟩ := e2
        rw [hres] at h1; cases h1
        rw [hc] at h2; cases h2
        rcases h3 with ⟨h3, rfl⟩ | ⟨h3, rfl⟩
        · have : c.default.isNone = false := by
            cases hx : c.default.isNone with
            | false => rfl
            | true => exact absurd ((isNone_iff _).1 hx) h3
          rw [this]; rfl
        · rw [h3]; rfl
  exact key defn attrs (fun _ h => h) hf

theorem ElIO.Kept.mono {env : Env} {n : Nat} {defn : List (Str × Field)} {e : Elem} (h : Kept env n defn e) :
    ∀ m ∈ defn, ∀ v, held e m.1 = some v → ∃ g, resolve env m.2 = some g ∧ Whole env g v ∧ v.depth < n + 1 := by
  intro m hm v hv
  obtain ⟨g, c, h1, h2, h3⟩ := h m hm
  have := h3 v (by unfold refilled; rw [hv]; rfl)
  exact ⟨g, h1, this.whole, by have := this.depth; omega⟩

/-- The children of the instance read back, and the instance. -/
theorem ElIO.instMembers_back {env : Env} {o : Outer} {n : Nat} {defn : List (Str × Field)} {e : Elem} (hnd : (defn.map (·.1)).Nodup)
    (hk : Kept env n defn e) {back : List (Str × Option Val)} (hbn : (back.map (·.1)).Nodup)
    (h : ∀ x ∈ back, ∃ g c, Declares env defn x.1 g c ∧ x.2 = refilled e x.1 c) :
    instMembers env (instantiate env o (n + 1)) defn (slotDict back) = .ok (slotDict back) := by
  have hk' : ∀ m ∈ defn, ∃ g c, resolve env m.2 = some g ∧ g.common? = some c ∧
      ∀ v, refilled e m.1 c = some v → Whole env g v ∧ v.depth < n + 1 := by
    intro m hm
    obtain ⟨g, c, h1, h2, h3⟩ := hk m hm
    exact ⟨g, c, h1, h2, fun v hv => ⟨(h3 v hv).whole, by have := (h3 v hv).depth; omega⟩⟩
  exact inst_back hnd hk' hbn h

theorem ElIO.no_self {env : Env} {defn : List (Str × Field)} (hself : c!"self" ∉ defn.map (·.1)) {back : List (Str × Option Val)}
    (h : ∀ x ∈ back, ∃ g c, Declares env defn x.1 g c) {params : List (Str × Val)}
    (hp : keywords (slotDict back) = .ok params) : params.lookup c!"self" = none := by
  rw [keywords_given hp]
  refine given_of_not_mem fun hm => ?_
  obtain ⟨en, hen, he1⟩ := List.mem_map.1 hm
  obtain ⟨x, hx, hxe⟩ := List.mem_filterMap.1 hen
  rw [Option.map_eq_some_iff] at hxe
  obtain ⟨v, hv, rfl⟩ := hxe
  obtain ⟨g, c', ⟨f, hl, -, -⟩⟩ := h x hx
  have : x.1 = c!"self" := Val.str.inj he1
  exact hself (this ▸ List.mem_map.2 ⟨_, ST.mem_of_lookup hl, rfl⟩)

theorem ElIO.setKey_none (k : Option Str) (attrs : List (Str × Val)) : setKey k .none attrs = attrs := by
  unfold setKey
  cases k <;> rfl

theorem ElIO.extracted_structure {env : Env} {o : Outer} {n : Nat} {c : Common} {defn : List (Str × Field)} {strict : Bool} {ko : List Str}
    {e : Elem} (hnd : (defn.map (·.1)).Nodup) (hk : Kept env n defn e) :
    e.extracted env o (n + 1) (.structure c defn strict ko) = .ok (.dict (kept e defn)) := by
  simp only [Elem.extracted, extractBody, extractPlain, extractMembers_kept hnd hk.mono]
  rfl

theorem ElIO.structure_back {env : Env} {o : Outer} {n : Nat} {c : Common} {defn : List (Str × Field)} {strict : Bool}
    {ko : List Str} {a : ElAttrs} (ha : elAttrs env (.structure c defn strict ko) = .ok a) {st : Elements} {cls : Nat} {k : ElCls}
    (hc : st.classes[cls]? = some k) (hka : k.attrs = some a) (hon : k.polyOn = a.on) {e : Elem}
    (hnd : (defn.map (·.1)).Nodup) (hall : ∀ m ∈ defn, m.1 ∈ visited defn ko) (hself : c!"self" ∉ defn.map (·.1))
    (hk : Kept env n defn e) (hset : Settled env (.structure c defn strict ko)) {s : Val}
    (h : process env (n + 1) (.structure c defn strict ko) (.dict (kept e defn)) .outbound true [] = .ok s) :
    ∃ w, process env (n + 1) (.structure c defn strict ko) (.dict (kept e defn)) .inbound false [] = .ok w ∧
      ∃ e', st.instantiated env o (n + 1) cls (.structure c defn strict ko) w = .ok (some e') ∧ e'.cls = cls ∧
        Refilled env defn e e'.attrs := by
  obtain ⟨hpre, -⟩ := hset.1 c rfl
  have hvis : (visited defn ko).Nodup := hset.2
  rcases (struct_ok hpre hvis).1 h with ⟨h1, -, -⟩ | ⟨d, h1, hst, slots, h2, h3, rfl⟩
  · cases h1
  · cases h1
    obtain ⟨back, b1, b2, b3⟩ := slots_back hnd hk (anc' := ancOr (.structure c defn strict ko) []) h3
    have hbn : (back.map (·.1)).Nodup := by rw [b1, h2]; exact hvis
    refine ⟨.dict (slotDict back), (struct_ok hpre hvis).2 (.inr ⟨_, rfl, hst, back, b1.trans h2, b2, rfl⟩), ?_⟩
    obtain ⟨params, hp⟩ := keywords_slots back
    obtain ⟨attrs, hi, hfill⟩ := (C32_attributes env c defn strict ko k a ha hka params).1
      (no_self hself (fun x hx => (b3 x hx).imp fun _ h => h.imp fun _ h => h.1) hp)
    have hplain : k.polyOn = none := by
      rw [hon]
      simp only [elAttrs, bind, Except.bind] at ha
      split at ha
      · cases ha
      · split at ha
        · cases ha; rfl
        · cases ha
    refine ⟨⟨cls, attrs⟩, ?_, rfl, refilled_of hk hbn (fun m hm => by rw [b1, h2]; exact hall m hm) hnd b3 hp hfill⟩
    have hinst : st.instantiate cls (slotDict back) .none = .ok ⟨cls, attrs⟩ := by
      simp only [Elements.instantiate, hc, Option.getD_some, Elements.chosen, hplain, hp, hi, setKey_none, except_bind_ok, except_pure]
    simp only [except_bind_ok, Elements.instantiated, Val.isNone, Bool.false_eq_true, if_false, instBody,
      instMembers_back hnd hk hbn b3, Except.map, hinst, raising]

/-- C65. Writing an instance of an Element whose schema is a structure and reading what was written gives an instance of
the class the schema belongs to, with the same attributes, except that an attribute that was None has the default of
its member. -/
theorem C65_structure (env : Env) (hz : ZoneLaw env) (o : Outer) (n : Nat) (c : Common) (defn : List (Str × Field)) (strict : Bool)
    (ko : List Str) (a : ElAttrs) (ha : elAttrs env (.structure c defn strict ko) = .ok a) (st : Elements) (cls : Nat) (k : ElCls)
    (hc : st.classes[cls]? = some k) (hka : k.attrs = some a) (hon : k.polyOn = a.on) (e : Elem)
    (hnd : (defn.map (·.1)).Nodup) (hall : ∀ m ∈ defn, m.1 ∈ visited defn ko) (hself : c!"self" ∉ defn.map (·.1))
    (hk : Kept env n defn e)
    (hf : ∀ g w, Involves env .outbound (.structure c defn strict ko) (.dict (kept e defn)) g w → Faithful env g w) (s : Val)
    (h : e.serialize env o (n + 1) (.structure c defn strict ko) = .ok s) :
    ∃ e', st.unserialize env o (n + 1) cls (.structure c defn strict ko) s = .ok (some e') ∧ e'.cls = cls ∧ Refilled env defn e e'.attrs := by
  simp only [Elem.serialize, extracted_structure hnd hk, except_bind_ok] at h
  obtain ⟨w, h1, e', h2, h3⟩ := structure_back (o := o) ha hc hka hon hnd hall hself hk (hf _ _ .here).1 h
  refine ⟨e', ?_, h3⟩
  simp only [Elements.unserialize, (C03_serialize_unserialize env hz (n + 1) _ _ _ _ hf h [] [] _).2 h1, except_bind_ok, h2]

/-- C65. The same through JSON. -/
theorem C65_json (env : Env) (hz : ZoneLaw env) (o : Outer) (n : Nat) (c : Common) (defn : List (Str × Field)) (strict : Bool)
    (ko : List Str) (a : ElAttrs) (ha : elAttrs env (.structure c defn strict ko) = .ok a) (st : Elements) (cls : Nat) (k : ElCls)
    (hc : st.classes[cls]? = some k) (hka : k.attrs = some a) (hon : k.polyOn = a.on) (e : Elem)
    (hnd : (defn.map (·.1)).Nodup) (hall : ∀ m ∈ defn, m.1 ∈ visited defn ko) (hself : c!"self" ∉ defn.map (·.1))
    (hk : Kept env n defn e)
    (hf : ∀ g w, Involves env .outbound (.structure c defn strict ko) (.dict (kept e defn)) g w → Faithful env g w)
    (hj : ∀ g w, Involves env .outbound (.structure c defn strict ko) (.dict (kept e defn)) g w → JsonReady env g w) (s : Val)
    (h : e.serialize env o (n + 1) (.structure c defn strict ko) = .ok s) :
    ∃ text e', e.serializeTo env o (n + 1) (.structure c defn strict ko) (jsonOps env) = .ok text ∧
      st.unserializeFrom env o (n + 1) cls (.structure c defn strict ko) (jsonOps env) text = .ok (some e') ∧ e'.cls = cls ∧
      Refilled env defn e e'.attrs := by
  simp only [Elem.serialize, extracted_structure hnd hk, except_bind_ok] at h
  obtain ⟨w, h1, e', h2, h3⟩ := structure_back (o := o) ha hc hka hon hnd hall hself hk (hf _ _ .here).1 h
  obtain ⟨text, h4, h5⟩ := C57_json env hz (n + 1) _ _ _ [] hf hj h
  refine ⟨text, e', ?_, ?_, h3⟩
  · simp only [Elem.serializeTo, extracted_structure hnd hk, except_bind_ok, h4]
  · simp only [Elements.unserializeFrom, (h5 [] w).2 h1, except_bind_ok, h2]

/-- C65. Without None attributes (other than those whose default is None) the instance read is the instance written. -/
theorem C65_same (env : Env) (defn : List (Str × Field)) (e e' : Elem)
    (hn : All2 (fun (m : Str × Field) (a : Str × Val) => a.1 = m.1 ∧ (a.2 = .none → ∀ default, MemberDefault env m.2 default → default = .none))
      defn e.attrs) (hnd : (defn.map (·.1)).Nodup) (hr : Refilled env defn e e'.attrs) : e'.attrs = e.attrs := by
  have key : ∀ (l : List (Str × Field)) (xs ys : List (Str × Val)), (∀ p ∈ xs, e.attrs.lookup p.1 = some p.2) →
      All2 (fun (m : Str × Field) (a : Str × Val) => a.1 = m.1 ∧ (a.2 = .none → ∀ default, MemberDefault env m.2 default → default = .none)) l xs →
      Refilled env l e ys → ys = xs := by
    intro l xs ys hl hx hy
    unfold Refilled at hy
    induction hx generalizing ys with
    | nil => cases hy; rfl
    | cons h1 _ ih =>
      cases hy with
      | cons h2 h3 =>
        rename_i m x ms xs' _ y ys'
        rw [ih ys' (fun p hp => hl p (List.mem_cons_of_mem _ hp)) h3]
        obtain ⟨e1, e2⟩ := h1
        obtain ⟨e3, dv, e4, e5⟩ := h2
        have hlx := hl x (by simp)
        rw [e1] at hlx
        unfold held at e5
        rw [hlx] at e5
        have : y = x := by
          refine Prod.ext (e3.trans e1.symm) ?_
          rw [e5]
          cases hn : x.2.isNone with
          | false => simp [Option.filter, hn]
          | true =>
            have := (isNone_iff _).1 hn
            rw [this, e2 this dv e4]
            rfl
        rw [this]
  refine key defn e.attrs e'.attrs (fun p hp => ?_) hn hr
  have hnames : e.attrs.map (·.1) = defn.map (·.1) := by
    clear hr key hp hnd
    generalize e.attrs = l at hn
    induction hn with
    | nil => rfl
    | cons h _ ih => rw [List.map_cons, List.map_cons, ih, h.1]
  rw [← hnames] at hnd
  exact lookup_of_mem_attrs hnd hp

/-! ### polymorphic schemas -/

theorem ElIO.poly_init {env : Env} {c : Common} {disc : Field} {vs : List (Val × List (Str × Field))} {s : Bool} {ko : List Str} {k : ElCls}
    {a : ElAttrs} (hk : elAttrs env (.poly c disc vs s ko) = .ok a) (hka : k.attrs = some a) (hon : k.polyOn = a.on)
    {params : List (Str × Val)} {id : Val} {defn : List (Str × Field)} (hself : params.lookup c!"self" = none)
    (hp : params.lookup (disc.name.getD []) = some id) (hh : hashable id = true) (hv : variantIn vs id = some defn) :
    ∃ attrs, k.init params = .ok attrs ∧ Filled env params defn attrs := by
  simp only [elAttrs, generateDefaults, Val.isNone, if_true, bind, Except.bind] at hk
  split at hk
  · cases hk
  · rename_i w hw
    cases hg : generateVariants env false vs with
    | error e => rw [hg] at hw; cases hw
    | ok d =>
      rw [hg] at hw
      cases hw
      simp only [Except.ok.injEq] at hk
      subst hk
      obtain ⟨g1, g2⟩ := generateVariants_get hg id
      cases hd : dictGet d id with
      | none => rw [g2 hd] at hv; cases hv
      | some x =>
        obtain ⟨defn', m, e1, rfl, e3⟩ := g1 x hd
        rw [hv] at e1; cases e1
        obtain ⟨attrs, hattrs⟩ := setAttrs_total (params := params) (d := m) (by
          intro e he
          have hsub := (generateValues_ok e3).1
          have hm : e.1 ∈ m.map (·.1) := List.mem_map.2 ⟨e, he, rfl⟩
          obtain ⟨m, -, hm2⟩ := List.mem_map.1 (hsub.subset hm)
          exact ⟨m.1, hm2.symm⟩)
        refine ⟨attrs, ?_, filled_of e3 hattrs⟩
        unfold ElCls.init
        simp only [hself, Option.isSome_none, Bool.false_eq_true, if_false, hka, hon, ElAttrs.on, hp, hh, if_true, hd, hattrs]

theorem ElIO.extracted_poly {env : Env} {o : Outer} {n : Nat} {c : Common} {disc : Field} {vs : List (Val × List (Str × Field))} {strict : Bool}
    {ko : List Str} {e : Elem} {id : Val} {defn : List (Str × Field)} (hid : e.attrs.lookup (disc.name.getD []) = some id)
    (ht : id.truthy = true) (hh : hashable id = true) (hv : variantIn vs id = some defn) (hnd : (defn.map (·.1)).Nodup)
    (hk : Kept env n defn e) :
    e.extracted env o (n + 1) (.poly c disc vs strict ko) = .ok (.dict (kept e defn)) := by
  have hd : dictGet e.extract (.str (disc.name.getD [])) = some id := by rw [dictGet_str_eq_given, given_extract]; exact hid
  simp only [Elem.extracted, extractBody, extractPoly, getMember, hd, ht, if_true, variantAt, hh, ← variantIn_eq, hv, except_bind_ok,
    extractMembers_kept hnd hk.mono]
  rfl

theorem ElIO.poly_back {env : Env} {o : Outer} {n : Nat} {c : Common} {disc : Field} {vs : List (Val × List (Str × Field))} {strict : Bool}
    {a : ElAttrs} (ha : elAttrs env (.poly c disc vs strict []) = .ok a) {st : Elements} {cls j : Nat} {k kj : ElCls}
    (hc : st.classes[cls]? = some k) (hon : k.polyOn = a.on) {e : Elem} {id : Val} {defn : List (Str × Field)}
    (hj : j = (implAt st.impls (k.owner.getD 0) id).getD cls)
    (hcj : st.classes[j]? = some kj) (hka : kj.attrs = some a) (honj : kj.polyOn = a.on)
    (hid : e.attrs.lookup (disc.name.getD []) = some id)
    (ht : id.truthy = true) (hh : hashable id = true) (hv : variantIn vs id = some defn)
    (hself : c!"self" ∉ defn.map (·.1))
    (hk : Kept env n defn e) (hf : Faithful env (.poly c disc vs strict []) (.dict (kept e defn))) {s : Val}
    (h : process env (n + 1) (.poly c disc vs strict []) (.dict (kept e defn)) .outbound true [] = .ok s) :
    ∃ w, process env (n + 1) (.poly c disc vs strict []) (.dict (kept e defn)) .inbound false [] = .ok w ∧
      ∃ e', st.instantiated env o (n + 1) cls (.poly c disc vs strict []) w = .ok (some e') ∧ e'.cls = j ∧
        Refilled env defn e e'.attrs := by
  obtain ⟨hset, hfv⟩ := hf
  obtain ⟨hpre, -⟩ := hset.1 c rfl
  obtain ⟨-, hdisc, hvs⟩ := hset.2
  have hnds : ∀ e ∈ vs, (e.2.map (·.1)).Nodup := fun e he => (hvs e.1 e.2 he).2.1
  have hvf : variantFor vs id = some defn := hv
  obtain ⟨ve, hve, hde⟩ : ∃ e, vs.find? (fun e => pyEq id e.1) = some e ∧ e.2 = defn := by
    have hv' := hv
    unfold variantIn at hv'
    rwa [Option.map_eq_some_iff] at hv'
  obtain ⟨i, defn'⟩ := ve
  simp only at hde
  subst hde
  have hmem : (i, defn') ∈ vs := List.mem_of_find?_eq_some hve
  obtain ⟨-, hnd, m, hlk, htag⟩ := hvs i defn' hmem
  have hdm := ST.mem_of_lookup hlk
  have hidn : id.isNone = false := isNone_of_truthy ht
  have hheld : held e (disc.name.getD []) = some id := by
    unfold held; rw [hid]; simp [Option.filter, hidn]
  have hgd : given (kept e defn') (disc.name.getD []) = some id := by
    have := given_kept (e := e) hnd hdm
    rw [hheld] at this; exact this
  have hfix : ∀ anc, process env n disc id .inbound false anc = .ok id := by
    obtain ⟨g, c', h1, h2, h3⟩ := hk _ hdm
    simp only at h1 h3
    rw [tag_resolve htag hdisc] at h1; cases h1
    exact fun anc => tag_up htag ((h3 id (by unfold refilled; rw [hheld]; rfl)).fixed anc)
  rcases (poly_ok hpre hnds).1 h with ⟨h1, -, -⟩ | ⟨d, raw, x, defn2, h1, hraw, hnn, hx, hhx, hv2, hne, hst, slots, h2, h3, rfl⟩
  · cases h1
  · cases h1
    rw [hgd] at hraw; cases hraw
    have hsame := (hfv _ rfl).2 _ n _ _ _ _ hgd hx (hfix [])
    rw [hv2, hvf] at hsame
    cases hsame
    obtain ⟨back, b1, b2, b3⟩ := slots_back hnd hk (anc' := ancOr (.poly c disc vs strict []) []) h3
    have hbn : (back.map (·.1)).Nodup := by rw [b1, h2]; exact hnd
    refine ⟨.dict (slotDict back), (poly_ok hpre hnds).2
      (.inr ⟨_, _, _, _, rfl, hgd, hnn, hfix _, hh, hvf, hne, hst, back, b1.trans h2, b2, rfl⟩), ?_⟩
    obtain ⟨params, hp⟩ := keywords_slots back
    have hgb : given (slotDict back) (disc.name.getD []) = some id := by
      obtain ⟨y, hy, hyn⟩ := List.mem_map.1 (show disc.name.getD [] ∈ back.map (·.1) by
        rw [b1, h2]; exact List.mem_map.2 ⟨_, hdm, rfl⟩)
      obtain ⟨g, c', -, h5⟩ := b3 y hy
      have := given_slotDict hbn hy
      rw [h5, hyn] at this
      rw [this]; unfold refilled; rw [hheld]; rfl
    obtain ⟨attrs, hi, hfill⟩ := poly_init ha hka honj
      (no_self hself (fun x hx => (b3 x hx).imp fun _ h => h.imp fun _ h => h.1) hp)
      (by rw [keywords_given hp]; exact hgb) hh hv
    have hon' : k.polyOn = some (disc.name.getD []) := by
      rw [hon]
      simp only [elAttrs, bind, Except.bind] at ha
      split at ha
      · cases ha
      · split at ha
        · cases ha; rfl
        · cases ha
    have hdb : dictGet (slotDict back) (.str (disc.name.getD [])) = some id := by rw [dictGet_str_eq_given]; exact hgb
    refine ⟨⟨j, attrs⟩, ?_, rfl, refilled_of hk hbn (fun m hm => by rw [b1, h2]; exact List.mem_map.2 ⟨m, hm, rfl⟩) hnd b3 hp hfill⟩
    have hinst : st.instantiate cls (slotDict back) .none = .ok ⟨j, attrs⟩ := by
      simp only [Elements.instantiate, hc, Option.getD_some, Elements.chosen, hon', hdb, hh, if_true, hp, ← hj, hcj, hi, setKey_none,
        except_bind_ok, except_pure]
    simp only [except_bind_ok, Elements.instantiated, Val.isNone, Bool.false_eq_true, if_false, instBody, hdb, ht, if_true, variantAt, hh,
      ← variantIn_eq, hv, instMembers_back hnd hk hbn b3, Except.map, hinst, raising]

/-- C65. Writing an instance of a polymorphic Element and reading what was written gives an instance of the class
registered for its identity (or of the head class if there is none) with the same attributes, except that an attribute that was
None has the default of its member. -/
theorem C65_poly (env : Env) (hz : ZoneLaw env) (o : Outer) (n : Nat) (c : Common) (disc : Field) (vs : List (Val × List (Str × Field)))
    (strict : Bool) (a : ElAttrs) (ha : elAttrs env (.poly c disc vs strict []) = .ok a) (st : Elements) (cls j : Nat) (k kj : ElCls)
    (hc : st.classes[cls]? = some k) (hon : k.polyOn = a.on) (e : Elem) (id : Val) (defn : List (Str × Field))
    (hj : j = (implAt st.impls (k.owner.getD 0) id).getD cls) (hcj : st.classes[j]? = some kj) (hka : kj.attrs = some a) (honj : kj.polyOn = a.on)
    (hid : e.attrs.lookup (disc.name.getD []) = some id) (ht : id.truthy = true) (hh : hashable id = true)
    (hv : variantIn vs id = some defn) (hself : c!"self" ∉ defn.map (·.1)) (hk : Kept env n defn e)
    (hnd : (defn.map (·.1)).Nodup)
    (hf : ∀ g w, Involves env .outbound (.poly c disc vs strict []) (.dict (kept e defn)) g w → Faithful env g w) (s : Val)
    (h : e.serialize env o (n + 1) (.poly c disc vs strict []) = .ok s) :
    ∃ e', st.unserialize env o (n + 1) cls (.poly c disc vs strict []) s = .ok (some e') ∧ e'.cls = j ∧ Refilled env defn e e'.attrs := by
  simp only [Elem.serialize, extracted_poly hid ht hh hv hnd hk, except_bind_ok] at h
  obtain ⟨w, h1, e', h2, h3⟩ := poly_back (o := o) ha hc hon hj hcj hka honj hid ht hh hv hself hk (hf _ _ .here) h
  refine ⟨e', ?_, h3⟩
  simp only [Elements.unserialize, (C03_serialize_unserialize env hz (n + 1) _ _ _ _ hf h [] [] _).2 h1, except_bind_ok, h2]

/-! ### other schemas -/

/-- C65. An Element whose schema is another field: its one attribute is written and read back. -/
theorem C65_value (env : Env) (hz : ZoneLaw env) (o : Outer) (n : Nat) (f : Field) (name : Str) (dflt v s : Val)
    (hns : ∀ c defn st ko, f ≠ .structure c defn st ko) (hnp : ∀ c d vs st ko, f ≠ .poly c d vs st ko)
    (hname : f.name = some name) (hself : name ≠ c!"self") (st : Elements) (cls : Nat) (k : ElCls)
    (hc : st.classes[cls]? = some k) (hka : k.attrs = some (.value name dflt)) (e : Elem)
    (hv : e.attrs.lookup name = some v) (hnn : v ≠ .none) (hk : Keeps env n f v)
    (hf : ∀ g w, Involves env .outbound f v g w → Faithful env g w) (h : e.serialize env o n f = .ok s) :
    ∃ e', st.unserialize env o n cls f s = .ok (some e') ∧ e'.cls = cls ∧ e'.attrs = [(name, v)] := by
  have hvn : v.isNone = false := by
    cases hx : v.isNone with
    | false => rfl
    | true => exact absurd ((isNone_iff _).1 hx) hnn
  have hh : Hookless f := by
    cases hk.whole <;> assumption
  have hu : ∀ c fs, f ≠ .union c fs := by
    rintro c fs rfl
    cases hk.whole with
    | null => exact hnn rfl
  obtain ⟨e', he1, he2, he3, -⟩ := C32_value st cls k hc name dflt v hka hself
  have hxb : extractBody env o true (extract env o true [] n) f v = .ok v := by
    have := extract_whole (o := o) hk.whole (n + 1) (by have := hk.depth; omega)
    obtain ⟨-, -, ⟨h, -⟩ | ⟨-, h⟩⟩ := extract_succ_ok (hookless_noExtractor hh) this
    · exact absurd h hnn
    · exact h
  have hib : instBody env (instantiate env o n) f v = .ok v := by
    have := instantiate_whole (o := o) hk.whole (n + 1) none (by have := hk.depth; omega)
    have hs : instantiate env o (n + 1) f v none = if v.isNone then .ok .none
        else (instBody env (instantiate env o n) f v >>= fun w => instOwn o f w none) := by
      cases f with
      | undef s => exact absurd rfl (hookless_undef hh s)
      | union c fs => exact absurd rfl (hu c fs)
      | _ => rfl
    rw [hs, hvn] at this
    simp only [Bool.false_eq_true, if_false] at this
    rw [except_bind_eq_ok] at this
    obtain ⟨w, h1, h2⟩ := this
    rw [instOwn_hookless hh] at h2
    cases h2; exact h1
  have hex : e.extracted env o n f = .ok v := by
    have hev : e.extractValue name = .ok v := by unfold Elem.extractValue; rw [hv]
    cases f with
    | «structure» => exact absurd rfl (hns _ _ _ _)
    | poly => exact absurd rfl (hnp _ _ _ _ _)
    | _ => simp only [Elem.extracted, hname, Option.getD_some, hev, hvn, Bool.false_eq_true, if_false, hxb]
  simp only [Elem.serialize, hex, except_bind_ok] at h
  have hback := (C03_serialize_unserialize env hz n _ _ _ _ hf h [] [] _).2 (hk.fixed [])
  refine ⟨e', ?_, he2, he3⟩
  have hin : st.instantiated env o n cls f v = .ok (some e') := by
    cases f with
    | «structure» => exact absurd rfl (hns _ _ _ _)
    | poly => exact absurd rfl (hnp _ _ _ _ _)
    | _ => simp only [Elements.instantiated, hvn, Bool.false_eq_true, if_false, hib, except_bind_ok, hname, Option.getD_some, he1, raising,
        Except.map]
  simp only [Elements.unserialize, hback, except_bind_ok, hin]

/-- C65. Such an Element with the value None is read back as None instead of an instance. -/
theorem C65_value_none (env : Env) (o : Outer) (n : Nat) (f : Field) (name : Str) (s : Val)
    (hns : ∀ c defn st ko, f ≠ .structure c defn st ko) (hnp : ∀ c d vs st ko, f ≠ .poly c d vs st ko)
    (hname : f.name = some name) (st : Elements) (cls : Nat) (e : Elem) (hv : e.attrs.lookup name = some .none)
    (h : e.serialize env o n f = .ok s) : s = .none ∧ st.unserialize env o n cls f s = .ok none := by
  have hev : e.extractValue name = .ok .none := by unfold Elem.extractValue; rw [hv]
  have hex : e.extracted env o n f = .ok .none := by
    cases f with
    | «structure» => exact absurd rfl (hns _ _ _ _)
    | poly => exact absurd rfl (hnp _ _ _ _ _)
    | _ => simp only [Elem.extracted, hname, Option.getD_some, hev, Val.isNone, if_true]
  simp only [Elem.serialize, hex, except_bind_ok] at h
  obtain ⟨c, hc⟩ : ∃ c, f.common? = some c := by
    cases f with
    | undef s => cases hname
    | _ => exact ⟨_, rfl⟩
  cases n with
  | zero => cases h
  | succ n =>
    obtain ⟨rfl, hnn⟩ := (process_none_ok hc).1 h
    refine ⟨rfl, ?_⟩
    simp only [Elements.unserialize, (process_none_ok hc).2 ⟨rfl, hnn⟩, except_bind_ok, Elements.instantiated, Val.isNone, if_true]

/-! ### a case, and the values that are lost -/

namespace ElIO.Ex

/-- `Integer(default=7)` -/
def seven : Field := .leaf { default := .int 7 } (.integer none none)
def defn : List (Str × Field) := [(c!"x", seven), (c!"tags", .sequence {} Scheme.Ex.int none none false)]
/-- `class Spot(Element): schema = Structure({'x': Integer(default=7), 'tags': Sequence(Integer())})` -/
def spot : Field := .structure {} defn true []
def attrs : ElAttrs := .plain [(.str c!"x", .int 7), (.str c!"tags", .none)]
def cls : ElCls := ⟨.none, some 0, none, none, none, some attrs⟩
def st : Elements := ⟨[cls], [], [(0, 0)]⟩

/-- `Spot(x=None, tags=[1, 2])` -/
def e : Elem := ⟨0, [(c!"x", .none), (c!"tags", .list [.int 1, .int 2])]⟩

theorem keeps : Kept Scheme.Ex.env 2 defn e := by
  intro m hm
  simp only [defn, List.mem_cons, List.not_mem_nil, or_false] at hm
  rcases hm with rfl | rfl
  · refine ⟨seven, _, rfl, rfl, ?_⟩
    intro v hv
    cases hv
    exact ⟨fun _ => rfl, .leaf ⟨_, rfl, rfl, rfl⟩, by simp [Val.depth]⟩
  · refine ⟨_, _, rfl, rfl, ?_⟩
    intro v hv
    cases hv
    refine ⟨fun _ => rfl, .sequence ⟨_, rfl, rfl, rfl⟩ (fun _ => ⟨_, rfl⟩) ?_, by simp [Val.depth, depthL]⟩
    intro x _ g hg
    cases hg
    exact .leaf ⟨_, rfl, rfl, rfl⟩

theorem faithful (g : Field) (w : Val) (h : Involves Scheme.Ex.env .outbound spot (.dict (kept e defn)) g w) :
    Faithful Scheme.Ex.env g w := by
  cases h with
  | here =>
    refine ⟨⟨fun c hc => by cases hc; exact ⟨rfl, fun h => by cases h⟩, show (visited defn []).Nodup by decide⟩, ?_⟩
    intro d hd name g c hdec
    obtain ⟨f, hl, hres, hc⟩ := hdec
    have hm := ST.mem_of_lookup hl
    simp only [defn, List.mem_cons, Prod.mk.injEq, List.not_mem_nil, or_false] at hm
    rcases hm with ⟨rfl, rfl⟩ | ⟨rfl, rfl⟩
    · cases hres
      cases hc
      refine ⟨fun h => (by cases h), fun _ _ m anc anc' r => ?_⟩
      cases m <;> exact Iff.rfl
    · cases hres
      cases hc
      exact ⟨fun h => (by cases h), fun _ h => absurd rfl h⟩
  | call hc hi =>
    cases hc with
    | member h1 h2 h3 h4 h5 h6 =>
      cases h1
      simp only [defn, List.mem_cons, Prod.mk.injEq, List.not_mem_nil, or_false] at h2
      rcases h2 with ⟨rfl, rfl⟩ | ⟨rfl, rfl⟩
      · cases h3
        cases hi with
        | call hc _ => cases hc
        | here => exact ⟨⟨fun c hc => by cases hc; exact ⟨rfl, fun h => by cases h⟩, trivial⟩, trivial⟩
      · cases h3
        cases hi with
        | here => exact ⟨⟨fun c hc => by cases hc; exact ⟨rfl, fun h => by cases h⟩, trivial⟩, trivial⟩
        | call hc hi =>
          cases hc with
          | item h1 h2 h3 =>
            cases h3
            cases hi with
            | call hc _ => cases hc
            | here => exact ⟨⟨fun c hc => by cases hc; exact ⟨rfl, fun h => by cases h⟩, trivial⟩, trivial⟩

example : ∃ e', st.unserialize Scheme.Ex.env Scheme.Ex.outer 3 0 spot (.dict [(.str c!"tags", .list [.int 1, .int 2])]) = .ok (some e') ∧
    e'.cls = 0 ∧ Refilled Scheme.Ex.env defn e e'.attrs :=
  C65_structure Scheme.Ex.env (by intro d w d' h; cases h; rfl) Scheme.Ex.outer 2 {} defn true [] attrs rfl st 0 cls rfl rfl rfl e
    (by decide) (by intro m hm; exact List.mem_map.2 ⟨m, hm, rfl⟩) (by decide) keeps faithful _ rfl

end ElIO.Ex

/-- C65. An attribute set to None although its member has a default does not stay None. -/
theorem C65_none_replaced :
    ElIO.Ex.e.attrs.lookup c!"x" = some .none ∧
    ElIO.Ex.e.serialize Ex.env Ex.outer 3 ElIO.Ex.spot = .ok (.dict [(.str c!"tags", .list [.int 1, .int 2])]) ∧
    ElIO.Ex.st.unserialize Ex.env Ex.outer 3 0 ElIO.Ex.spot (.dict [(.str c!"tags", .list [.int 1, .int 2])]) =
      .ok (some ⟨0, [(c!"x", .int 7), (c!"tags", .list [.int 1, .int 2])]⟩) := ⟨rfl, rfl, rfl⟩

end Scheme
