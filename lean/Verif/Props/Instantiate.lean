import Verif.Spec.Instantiate
import Verif.Props.Extract

/-! C31: instantiating and extracting. -/

namespace Scheme

theorem perm_of_nodup {α : Type} {l l' : List α} (h1 : l.Nodup) (h2 : l'.Nodup) (h : ∀ a, a ∈ l ↔ a ∈ l') : l.Perm l' := by
  induction l generalizing l' with
  | nil =>
    cases l' with
    | nil => exact .nil
    | cons a r => exact absurd ((h a).2 (List.mem_cons_self ..)) (by simp)
  | cons a r ih =>
    obtain ⟨s, t, rfl⟩ := List.append_of_mem ((h a).1 (List.mem_cons_self ..))
    rw [List.nodup_cons] at h1
    have h2' := List.perm_middle.nodup_iff.1 h2
    rw [List.nodup_cons] at h2'
    refine .trans (.cons a (ih h1.2 h2'.2 fun b => ?_)) List.perm_middle.symm
    have hb := h b
    rw [List.perm_middle.mem_iff] at hb
    simp only [List.mem_cons] at hb
    constructor
    · intro hr
      rcases hb.1 (.inr hr) with rfl | h'
      · exact absurd hr h1.1
      · exact h'
    · intro hr
      rcases hb.2 (.inr hr) with rfl | h'
      · exact absurd hr h2'.1
      · exact h'

theorem instChild_ok {env : Env} {rec : Inst} {f : Field} {v : Val} {key : Option Val} {w : Val} :
    instChild env rec f v key = .ok w ↔ ∃ g, resolve env f = some g ∧ rec g v key = .ok w := by
  unfold instChild
  cases resolve env f <;> simp

/-- Instantiating at one field and extracting there. -/
theorem instOwn_inverse {o : Outer} {f : Field} {v x : Val} {key : Option Val} (hi : Inverse o f) (hu : NotUnion f)
    (hf : ∀ s, f ≠ .undef s) (hv : v ≠ .none) (h : instOwn o f v key = .ok x) :
    x ≠ .none ∧ applyExtractor o f x = .ok v := by
  have ha : ∀ c, f.common? = some c → applyExtractor o f x = extractor o f c.extor x := by
    intro c hc
    cases f with
    | union c fs => exact absurd rfl (hu c fs)
    | undef s => exact absurd rfl (hf s)
    | _ => simp [applyExtractor, hc]
  have hc : ∃ c, f.common? = some c := by
    cases f with
    | undef s => exact absurd rfl (hf s)
    | _ => exact ⟨_, rfl⟩
  obtain ⟨c, hc⟩ := hc
  rw [ha c hc]
  have hvn : v.isNone = false := by cases v <;> simp_all [Val.isNone]
  rcases hi c hc with ⟨h1, h2⟩ | ⟨i, e, h1, h2, h3⟩
  · simp only [instOwn, hc, Option.bind_some, h1, Except.ok.injEq] at h
    subst h
    exact ⟨hv, by simp [extractor, h2]⟩
  · simp only [instOwn, hc, Option.bind_some, h1, hvn, Bool.false_eq_true, if_false] at h
    obtain ⟨h4, h5⟩ := h3 v _ x hv h
    exact ⟨h4, by simp [extractor, h2, h5]⟩

section
variable {env : Env} {o : Outer} {rec : Inst} {ext : Ext}

theorem instItems_extract {item : Field} {l p : List Val}
    (hr : ∀ g, resolve env item = some g → ∀ v ∈ l, ∀ x, rec g v none = .ok x → ∃ w, ext g x = .ok w ∧ SameData w v)
    (h : instItems env rec item l = .ok p) : ∃ out, extractItems env ext item p = .ok out ∧ SameItems out l := by
  induction l generalizing p with
  | nil => simp only [instItems, Except.ok.injEq] at h; subst h; exact ⟨[], rfl, .nil⟩
  | cons v r ih =>
    simp only [instItems, except_bind_eq_ok, except_pure, Except.ok.injEq] at h
    obtain ⟨x, hx, r', hr', rfl⟩ := h
    obtain ⟨g, hg, hx⟩ := instChild_ok.1 hx
    obtain ⟨w, hw, hs⟩ := hr g hg v (List.mem_cons_self ..) x hx
    obtain ⟨out, ho, hso⟩ := ih (fun g hg v hv => hr g hg v (List.mem_cons_of_mem _ hv)) hr'
    exact ⟨w :: out, by simp [extractItems, childOk_of hg hw, ho], .cons hs hso⟩

theorem instEntries_extract {value : Field} {d p : List (Val × Val)}
    (hr : ∀ g, resolve env value = some g → ∀ e ∈ d, ∀ x, rec g e.2 (some e.1) = .ok x → ∃ w, ext g x = .ok w ∧ SameData w e.2)
    (h : instEntries env rec value d = .ok p) : ∃ out, extractEntries env ext value p = .ok out ∧ SameEntries out d := by
  induction d generalizing p with
  | nil => simp only [instEntries, Except.ok.injEq] at h; subst h; exact ⟨[], rfl, .nil⟩
  | cons e r ih =>
    obtain ⟨k, v⟩ := e
    simp only [instEntries, except_bind_eq_ok, except_pure, Except.ok.injEq] at h
    obtain ⟨x, hx, r', hr', rfl⟩ := h
    obtain ⟨g, hg, hx⟩ := instChild_ok.1 hx
    obtain ⟨w, hw, hs⟩ := hr g hg (k, v) (List.mem_cons_self ..) x hx
    obtain ⟨out, ho, hso⟩ := ih (fun g hg v hv => hr g hg v (List.mem_cons_of_mem _ hv)) hr'
    exact ⟨(k, w) :: out, by simp [extractEntries, childOk_of hg hw, ho], .cons hs hso⟩

theorem instSlots_extract {fs : List Field} {pre l p : List Val} (hl : l.length = fs.length)
    (hr : ∀ q ∈ fs.zip l, ∀ g, resolve env q.1 = some g → ∀ x, rec g q.2 none = .ok x → ∃ w, ext g x = .ok w ∧ SameData w q.2)
    (h : instSlots env rec (.tuple (pre ++ l)) pre.length fs = .ok p) :
    ∃ out, extractSlots env ext fs p = .ok out ∧ SameItems out l := by
  induction fs generalizing pre l p with
  | nil =>
    simp only [instSlots, Except.ok.injEq] at h; subst h
    cases l with
    | nil => exact ⟨[], rfl, .nil⟩
    | cons a r => simp at hl
  | cons f fs ih =>
    cases l with
    | nil => simp at hl
    | cons v r =>
      simp only [instSlots, except_bind_eq_ok, except_pure, Except.ok.injEq] at h
      obtain ⟨v', hv', x, hx, r', hr', rfl⟩ := h
      have : v' = v := by
        simp [indexAt] at hv'
        exact hv'.symm
      subst this
      obtain ⟨g, hg, hx⟩ := instChild_ok.1 hx
      rw [List.zip_cons_cons] at hr
      obtain ⟨w, hw, hs⟩ := hr (f, v') (List.mem_cons_self ..) g hg x hx
      obtain ⟨out, ho, hso⟩ := @ih (pre ++ [v']) r r' (by simpa using hl) (fun q hq => hr q (List.mem_cons_of_mem _ hq))
        (by simpa using hr')
      exact ⟨w :: out, by simp [extractSlots, childOk_of hg hw, ho], .cons hs hso⟩

theorem fieldAt_ok {defn : List (Str × Field)} {k : Val} {f : Field} (h : fieldAt defn k = .ok f) :
    ∃ name, k = .str name ∧ defn.lookup name = some f := by
  unfold fieldAt at h
  split at h
  · split at h
    · rename_i hl; cases h; exact ⟨_, rfl, hl⟩
    · cases h
  · cases h

/-- The instantiated members: the same text keys, each value instantiated by its member's field. -/
theorem instMembers_spec {defn : List (Str × Field)} {d p : List (Val × Val)} (h : instMembers env rec defn d = .ok p) :
    (∀ e ∈ d, ∃ name f g, e.1 = .str name ∧ defn.lookup name = some f ∧ resolve env f = some g) ∧
    ∀ name x, given p name = some x ↔ ∃ v f g, given d name = some v ∧ defn.lookup name = some f ∧ resolve env f = some g ∧
      rec g v (some (.str name)) = .ok x := by
  induction d generalizing p with
  | nil => simp only [instMembers, Except.ok.injEq] at h; subst h; simp [given]
  | cons e r ih =>
    obtain ⟨k, v⟩ := e
    simp only [instMembers, except_bind_eq_ok, except_pure, Except.ok.injEq] at h
    obtain ⟨f, hf, x, hx, r', hr', rfl⟩ := h
    obtain ⟨name, rfl, hl⟩ := fieldAt_ok hf
    obtain ⟨g, hg, hx⟩ := instChild_ok.1 hx
    obtain ⟨ih1, ih2⟩ := ih hr'
    refine ⟨fun e he => ?_, fun nm y => ?_⟩
    · rcases List.mem_cons.1 he with rfl | he
      · exact ⟨name, f, g, rfl, hl, hg⟩
      · exact ih1 e he
    · rw [given_cons_str, given_cons_str]
      by_cases hn : name = nm
      · subst hn
        simp only [if_true, Option.some.injEq]
        constructor
        · rintro rfl; exact ⟨v, f, g, rfl, hl, hg, hx⟩
        · rintro ⟨v', f', g', rfl, hl', hg', hx'⟩
          rw [hl] at hl'; cases hl'
          rw [hg] at hg'; cases hg'
          rw [hx] at hx'; cases hx'; rfl
      · simp only [hn, if_false]
        exact ih2 nm y

theorem given_of_mem {d : List (Val × Val)} {name : Str} {v : Val} (hnd : (d.map (·.1)).Nodup) (h : (.str name, v) ∈ d) :
    given d name = some v := by
  induction d with
  | nil => cases h
  | cons e r ih =>
    obtain ⟨k, x⟩ := e
    rw [List.map_cons, List.nodup_cons] at hnd
    rcases List.mem_cons.1 h with h | h
    · cases h; rw [given_cons_str]; simp
    · have : k ≠ .str name := by
        intro hk
        exact hnd.1 (hk ▸ List.mem_map.2 ⟨(Val.str name, v), h, rfl⟩)
      have h' := ih hnd.2 h
      unfold given at h' ⊢
      rw [List.find?_cons]
      cases k with
      | str s =>
        have : (s == name) = false := by
          simp only [beq_eq_false_iff_ne, ne_eq]; rintro rfl; exact this rfl
        simp only [this]
        exact h'
      | _ => exact h'

theorem mem_of_given {d : List (Val × Val)} {name : Str} {v : Val} (h : given d name = some v) : (.str name, v) ∈ d := by
  rw [← dictGet_str_eq_given] at h
  obtain ⟨k, hk, he⟩ := dictGet_mem h
  rw [pyEq_str_left] at he
  exact he ▸ hk

theorem members_roundtrip {defn : List (Str × Field)} {d p : List (Val × Val)} (hnd : (defn.map (·.1)).Nodup)
    (hd : (d.map (·.1)).Nodup)
    (hne : ∀ e ∈ defn, ∀ g, resolve env e.2 = some g → ∀ x, ext g x ≠ .error .excluded)
    (hr : ∀ e ∈ d, ∀ name f g, e.1 = .str name → defn.lookup name = some f → resolve env f = some g →
      ∀ x, rec g e.2 (some (.str name)) = .ok x → x ≠ .none ∧ ∃ w, ext g x = .ok w ∧ SameData w e.2)
    (h : instMembers env rec defn d = .ok p) :
    ∃ out, extractMembers env o ext (.dict p) defn = .ok out ∧ SameData (.dict out) (.dict d) ∧
      ∀ name w, given out name = some w ↔ ∃ f g x, defn.lookup name = some f ∧ given p name = some x ∧ x ≠ .none ∧
        resolve env f = some g ∧ ext g x = .ok w := by
  obtain ⟨hkeys, hp⟩ := instMembers_spec h
  have hlk : ∀ {e : Str × Field}, e ∈ defn → defn.lookup e.1 = some e.2 := by
    intro e he
    clear hne hr h hkeys hp
    induction defn with
    | nil => cases he
    | cons a r ih =>
      rw [List.map_cons, List.nodup_cons] at hnd
      obtain ⟨an, af⟩ := a
      rw [List.lookup_cons]
      rcases List.mem_cons.1 he with rfl | he
      · simp
      · have : (e.1 == an) = false := by
          simp only [beq_eq_false_iff_ne, ne_eq]
          intro h
          exact hnd.1 (List.mem_map.2 ⟨e, he, h⟩)
        simp only [this]
        exact ih hnd.2 he
  have hsome : ∃ out, extractMembers env o ext (.dict p) defn = .ok out := by
    refine (extractMembers_ok fun e he x _ g hg => hne e he g hg x).2 ⟨?_, ?_⟩
    · intro e he x hx _
      obtain ⟨v, f, g, _, hf, hg, _⟩ := (hp _ _).1 hx
      rw [hlk he] at hf; cases hf
      exact ⟨g, hg⟩
    · intro e he x hx _ g hg
      obtain ⟨v, f, g', hv, hf, hg', hi⟩ := (hp _ _).1 hx
      rw [hlk he] at hf; cases hf
      rw [hg] at hg'; cases hg'
      obtain ⟨-, w, hw, -⟩ := hr _ (mem_of_given hv) _ _ _ rfl (hlk he) hg x hi
      exact ⟨w, hw⟩
  obtain ⟨out, hout⟩ := hsome
  refine ⟨out, hout, ?_, fun name w => extractMembers_given hnd hout name w⟩
  have hok := extractMembers_keys hout
  have hond : (out.map (·.1)).Nodup := by
    refine List.Nodup.sublist hok ?_
    rw [List.Nodup, List.pairwise_map] at hnd ⊢
    exact hnd.imp fun h h' => h (Val.str.inj h')
  -- align the extracted entries with the original ones
  have halign : ∀ l, (∀ e ∈ l, e ∈ d) → ∃ l', SameEntries l' l ∧ l'.map (·.1) = l.map (·.1) ∧ ∀ e ∈ l', e ∈ out := by
    intro l
    induction l with
    | nil => exact fun _ => ⟨[], .nil, rfl, by simp⟩
    | cons e r ih =>
      intro hl
      obtain ⟨l', h1, h2, h3⟩ := ih fun e he => hl e (List.mem_cons_of_mem _ he)
      have hed := hl e (List.mem_cons_self ..)
      obtain ⟨name, f, g, hk, hf, hg⟩ := hkeys e hed
      obtain ⟨k, v⟩ := e
      simp only at hk; subst hk
      have hgd := given_of_mem hd hed
      -- the instantiated member
      have hx : ∃ x, given p name = some x := by
        clear hr hout hok hond
        have : Val.str name ∈ p.map (·.1) := by
          have hpk : p.map (·.1) = d.map (·.1) := by
            clear hkeys hp hgd hed hl ih h1 h2 h3 hd
            induction d generalizing p with
            | nil => simp only [instMembers, Except.ok.injEq] at h; subst h; rfl
            | cons e r ih =>
              obtain ⟨k, v⟩ := e
              simp only [instMembers, except_bind_eq_ok, except_pure, Except.ok.injEq] at h
              obtain ⟨f, hf, x, hx, r', hr', rfl⟩ := h
              simp [ih hr']
          rw [hpk]; exact List.mem_map.2 ⟨_, hed, rfl⟩
        rw [← dictGet_str_isSome, Option.isSome_iff_exists] at this
        simpa [dictGet_str_eq_given] using this
      obtain ⟨x, hx⟩ := hx
      obtain ⟨v', f', g', hv', hf', hg', hi⟩ := (hp _ _).1 hx
      rw [hgd] at hv'; cases hv'
      rw [hf] at hf'; cases hf'
      rw [hg] at hg'; cases hg'
      obtain ⟨hxn, w, hw, hs⟩ := hr _ hed _ _ _ rfl hf hg x hi
      refine ⟨(.str name, w) :: l', .cons hs h1, by simp [h2], fun e he => ?_⟩
      rcases List.mem_cons.1 he with rfl | he
      · exact mem_of_given ((extractMembers_given hnd hout name w).2 ⟨f, g, x, hf, hx, hxn, hg, hw⟩)
      · exact h3 e he
  obtain ⟨l', h1, h2, h3⟩ := halign d fun _ h => h
  refine .dict l' (perm_of_nodup ?_ ?_ fun e => ⟨fun he => ?_, h3 e⟩) h1
  · exact List.Pairwise.of_map (·.1) (fun _ _ h h' => h (congrArg _ h')) hond
  · exact List.Pairwise.of_map (·.1) (fun _ _ h h' => h (congrArg _ h')) (h2 ▸ hd)
  · -- an extracted entry comes from an entry of `d`
    obtain ⟨k, w⟩ := e
    have hkm : k ∈ out.map (·.1) := List.mem_map.2 ⟨_, he, rfl⟩
    obtain ⟨e, hed, hek⟩ := List.mem_map.1 (hok.subset hkm)
    subst hek
    have hgw := given_of_mem hond he
    obtain ⟨f, g, x, hf, hx, hxn, hg, hw⟩ := (extractMembers_given hnd hout _ w).1 hgw
    obtain ⟨v, f', g', hv, -⟩ := (hp _ _).1 hx
    have hvd := mem_of_given hv
    have : Val.str e.1 ∈ l'.map (·.1) := by rw [h2]; exact List.mem_map.2 ⟨_, hvd, rfl⟩
    obtain ⟨e', he', hk'⟩ := List.mem_map.1 this
    obtain ⟨k', w'⟩ := e'
    simp only at hk'; subst hk'
    have hgw' := given_of_mem hond (h3 _ he')
    rw [hgw] at hgw'; cases hgw'
    exact he'

end

theorem isNone_of_truthy {v : Val} (h : v.truthy = true) : v.isNone = false := by
  cases v with
  | none => simp [Val.truthy] at h
  | _ => rfl

/-- Instantiating followed by extracting, also reporting that a value other than None stays one. -/
theorem roundtrip (env : Env) (o : Outer) (n : Nat) (f : Field) (v : Val) (key : Option Val) (x : Val)
    (hi : Everywhere env (Inverse o) f) (hu : Everywhere env NotUnion f) (hg : Everywhere env GoodNames f)
    (hp : Everywhere env PlainDisc f) (hs : Shaped env f v) (h : instantiate env o n f v key = .ok x) :
    (v ≠ .none → x ≠ .none) ∧ ∃ w, extract env o true [] n f x = .ok w ∧ SameData w v := by
  induction n generalizing f v key x with
  | zero => simp [instantiate] at h
  | succ n ih =>
    have hf : ∀ s, f ≠ .undef s := by
      rintro s rfl
      simp [instantiate, instStep] at h
    have hstep : instantiate env o (n + 1) f v key = if v.isNone then .ok .none else
        (instBody env (instantiate env o n) f v >>= fun w => instOwn o f w key) := by
      cases f with
      | union c fs => exact absurd rfl (hu.here c fs)
      | undef s => exact absurd rfl (hf s)
      | _ => rfl
    rw [hstep] at h
    have hexc : excluded o f [] = false := by
      cases f <;> simp [excluded, screen]
    have hext : ∀ y, extract env o true [] (n + 1) f y = if y.isNone then .ok .none else
        (applyExtractor o f y >>= fun w => extractBody env o true (extract env o true [] n) f w) := by
      intro y
      cases f with
      | undef s => exact absurd rfl (hf s)
      | _ => simp only [extract, extractStep, hexc, Bool.false_eq_true, if_false]
    by_cases hv : v = .none
    · subst hv
      simp only [Val.isNone, if_true, Except.ok.injEq] at h
      subst h
      exact ⟨fun h => absurd rfl h, .none, by simp [hext, Val.isNone], .refl _⟩
    · have hvn : v.isNone = false := by cases v <;> simp_all [Val.isNone]
      simp only [hvn, Bool.false_eq_true, if_false, except_bind_eq_ok] at h
      obtain ⟨y, hy, h⟩ := h
      -- it suffices to extract from the inner result
      suffices hsuf : y ≠ .none ∧ ∃ w, extractBody env o true (extract env o true [] n) f y = .ok w ∧ SameData w v by
        obtain ⟨hyn, w, hw, hsw⟩ := hsuf
        obtain ⟨hxn, hx⟩ := instOwn_inverse hi.here hu.here hf hyn h
        refine ⟨fun _ => hxn, w, ?_, hsw⟩
        have hxn' : x.isNone = false := by cases x <;> simp_all [Val.isNone]
        simp [hext, hxn', hx, hw]
      have hch : ∀ g, Child env f g → ∀ v key x, Shaped env g v → instantiate env o n g v key = .ok x →
          (v ≠ .none → x ≠ .none) ∧ ∃ w, extract env o true [] n g x = .ok w ∧ SameData w v :=
        fun g hc v key x => ih g v key x (hi.child hc) (hu.child hc) (hg.child hc) (hp.child hc)
      have hne : ∀ g, Child env f g → ∀ x, extract env o true [] n g x ≠ .error .excluded :=
        fun g hc x => extract_not_excluded (hu.child hc).here
      cases hs with
      | null => exact absurd rfl hv
      | leaf =>
        simp only [instBody, Except.ok.injEq] at hy
        subst hy
        exact ⟨hv, v, rfl, .refl _⟩
      | @sequence c item mn mx u l hsh =>
        simp only [instBody, iterate, except_bind_ok, except_map_eq_ok] at hy
        obtain ⟨p, hp', rfl⟩ := hy
        obtain ⟨out, ho, hso⟩ := instItems_extract (ext := extract env o true [] n) (fun g hg v hv x hx =>
          (hch g (.item hg) v none x (hsh g hg v hv) hx).2) hp'
        exact ⟨by simp, .list out, by simp [extractBody, extractSequence, ho, Except.map], .list hso⟩
      | @map c kf value req d hsh =>
        simp only [instBody, except_map_eq_ok] at hy
        obtain ⟨p, hp', rfl⟩ := hy
        obtain ⟨out, ho, hso⟩ := instEntries_extract (ext := extract env o true [] n) (fun g hg e he x hx =>
          (hch g (.value hg) e.2 _ x (hsh g hg e he) hx).2) hp'
        exact ⟨by simp, .dict out, by simp [extractBody, extractMap, ho, Except.map], .dict out (.refl _) hso⟩
      | @tuple c fs l hl hsh =>
        simp only [instBody, except_map_eq_ok] at hy
        obtain ⟨p, hp', rfl⟩ := hy
        obtain ⟨out, ho, hso⟩ := instSlots_extract (ext := extract env o true [] n) (pre := []) hl (fun q hq g hg x hx =>
          (hch g (.tuple (List.of_mem_zip hq).1 hg) q.2 none x (hsh q hq g hg) hx).2) hp'
        exact ⟨by simp, .tuple out, by simp [extractBody, extractTuple, ho, Except.map], .tuple hso⟩
      | @«structure» c defn s ko d hd hn hsh =>
        simp only [instBody, except_map_eq_ok] at hy
        obtain ⟨p, hp', rfl⟩ := hy
        obtain ⟨out, ho, hso, -⟩ := members_roundtrip (o := o) (ext := extract env o true [] n) hg.here hd
          (fun e he g hge => hne g (.member he hge))
          (fun e he name f g hk hf hgr x hx => by
            obtain ⟨h1, h2⟩ := hch g (.member (lookup_mem hf) hgr) e.2 _ x (hsh e he name f g hk hf hgr) hx
            exact ⟨h1 (hn e he), h2⟩) hp'
        exact ⟨by simp, .dict out, by simp [extractBody, extractPlain, ho, Except.map], hso⟩
      | @poly c disc vs s ko d id hd hn hid ht hsh =>
        simp only [instBody, dictGet_str_eq_given, hid, ht, if_true, except_bind_eq_ok, except_map_eq_ok] at hy
        obtain ⟨defn, hdef, p, hp', rfl⟩ := hy
        obtain ⟨i, hmem, hvar⟩ : ∃ i, (i, defn) ∈ vs ∧ variantIn vs id = some defn := by
          unfold variantAt at hdef
          split at hdef
          · split at hdef
            · rename_i hv'; cases hdef; obtain ⟨i, hi, -⟩ := variantGet_mem' hv'; exact ⟨i, hi, by rw [variantIn_eq]; exact hv'⟩
            · cases hdef
          · cases hdef
        have hgn : (defn.map (·.1)).Nodup := (hg.here _ hmem).1
        obtain ⟨out, ho, hso, -⟩ := members_roundtrip (o := o) (ext := extract env o true [] n) hgn hd
          (fun e he g hge => hne g (.variant hmem he hge))
          (fun e he name f g hk hf hgr x hx => by
            obtain ⟨h1, h2⟩ := hch g (.variant hmem (lookup_mem hf) hgr) e.2 _ x (hsh defn hvar e he name f g hk hf hgr) hx
            exact ⟨h1 (hn e he), h2⟩) hp'
        -- the identity is instantiated to itself
        have hpid : given p (disc.name.getD []) = some id := by
          obtain ⟨c', k', hdl⟩ := (hg.here _ hmem).2
          obtain ⟨c'', k'', hdl', hin⟩ := hp.here _ hmem _ hdl
          cases hdl'
          refine ((instMembers_spec hp').2 _ _).2 ⟨id, _, .leaf c' k', hid, hdl, rfl, ?_⟩
          obtain ⟨name, f, g, hk, hfl, hgr⟩ := (instMembers_spec hp').1 _ (mem_of_given hid)
          cases n with
          | zero =>
            exfalso
            have hmem' := mem_of_given hid
            clear hstep hext hch hne ih
            induction d generalizing p with
            | nil => cases hmem'
            | cons e r _ =>
              obtain ⟨k, v⟩ := e
              simp only [instMembers, except_bind_eq_ok] at hp'
              obtain ⟨f, -, x, hx, -⟩ := hp'
              obtain ⟨g, -, hx⟩ := instChild_ok.1 hx
              simp [instantiate] at hx
          | succ n =>
            have hidn := isNone_of_truthy ht
            simp [instantiate, instStep, hidn, instBody, instOwn, Field.common?, hin]
        exact ⟨by simp, .dict out, by
          simp [extractBody, extractPoly, getMember, dictGet_str_eq_given, hpid, ht, hdef, ho, Except.map], hso⟩

/-- C31. For schemas without unions in which every extractor undoes its field's instantiator: extracting from
what `instantiate` built from a value yields the value again, up to the order of dict entries. -/
theorem C31_roundtrip (env : Env) (o : Outer) (n : Nat) (f : Field) (v : Val) (key : Option Val) (x : Val)
    (hi : Everywhere env (Inverse o) f) (hu : Everywhere env NotUnion f) (hg : Everywhere env GoodNames f)
    (hp : Everywhere env PlainDisc f) (hs : Shaped env f v) (h : instantiate env o n f v key = .ok x) :
    ∃ w, extract env o true [] n f x = .ok w ∧ SameData w v :=
  (roundtrip env o n f v key x hi hu hg hp hs h).2

/-- C31. A union cannot be instantiated, with or without a key, whatever the value and its instantiator. -/
theorem C31_union (env : Env) (o : Outer) (n : Nat) (c : Common) (fs : List Field) (v : Val) (key : Option Val) :
    ∃ e, instantiate env o (n + 1) (.union c fs) v key = .error (.py e) := by
  cases key with
  | none => exact ⟨_, rfl⟩
  | some k => exact ⟨_, rfl⟩

namespace Ex

/-- Instantiator 0 wraps a value in a one-element list, extractor 0 unwraps it. -/
def boxing : Outer where
  attr _ _ := none
  ext _ _ v := match v with | .list [x] => .ok x | _ => .error (.py .typeError)
  inst _ _ v _ := .ok (.list [v])
  getattr _ _ := .error .attributeError

def boxed : Field := .structure { instor := some 0, extor := some 0 } [(c!"b", .leaf { instor := some 0, extor := some 0 } (.integer none none)), (c!"a", int)] true []

/-- The same fields with the discriminator boxed. -/
def boxedKind : Field := .poly {} (.leaf { name := some c!"kind" } (.integer none none))
  [(.int 1, [(c!"kind", .leaf { name := some c!"kind", instor := some 0, extor := some 0, constant := .int 1 } (.integer none none))])] true []

end Ex

/-- C31. None members are not restored: extract drops them. -/
theorem C31_none_dropped :
    instantiate Ex.env Ex.outer 3 (.structure {} [(c!"a", Ex.int)] true []) (.dict [(.str c!"a", .none)]) none =
      .ok (.dict [(.str c!"a", .none)]) ∧
    extract Ex.env Ex.outer true [] 3 (.structure {} [(c!"a", Ex.int)] true []) (.dict [(.str c!"a", .none)]) = .ok (.dict []) := by
  refine ⟨rfl, ?_⟩
  simp [extract, extractStep, excluded, screen, Val.isNone, applyExtractor, extractor, Field.common?, extractBody, extractPlain,
    extractMembers, memberValue, getMember, dictGet, pyEq, Except.map]

/-- C31. An instantiated discriminator is not recognised when extracting. -/
theorem C31_discriminator :
    instantiate Ex.env Ex.boxing 3 Ex.boxedKind (.dict [(.str c!"kind", .int 1)]) none =
      .ok (.dict [(.str c!"kind", .list [.int 1])]) ∧
    extract Ex.env Ex.boxing true [] 3 Ex.boxedKind (.dict [(.str c!"kind", .list [.int 1])]) = .error (.py .typeError) := by
  constructor
  · simp [instantiate, instStep, Ex.boxedKind, Val.isNone, instBody, dictGet, pyEq, Val.truthy, variantAt, hashable, variantGet, numOf, numEq,
      instMembers, fieldAt, instChild, resolve, instOwn, Field.common?, Ex.boxing, Except.map, Field.name]
  · simp [extract, extractStep, Ex.boxedKind, excluded, screen, Val.isNone, applyExtractor, extractor, Field.common?, extractBody, extractPoly,
      getMember, dictGet, pyEq, Field.name, Val.truthy, variantAt, hashable]

example : Everywhere Ex.env (Inverse Ex.boxing) Ex.boxed ∧ Everywhere Ex.env NotUnion Ex.boxed ∧ Everywhere Ex.env GoodNames Ex.boxed ∧
    Everywhere Ex.env PlainDisc Ex.boxed := by
  have : Everywhere Ex.env (fun f => Inverse Ex.boxing f ∧ NotUnion f ∧ GoodNames f ∧ PlainDisc f) Ex.boxed := by
    have hb : ∀ (f : Field) (v key x : Val), v ≠ .none → Ex.boxing.inst 0 f v key = .ok x → x ≠ .none ∧ Ex.boxing.ext 0 f x = .ok v := by
      rintro f v key x - h; cases h; exact ⟨by simp, rfl⟩
    refine .mk' ⟨?_, ?_, ?_, trivial⟩ ?_
    · intro c hc; cases hc; exact .inr ⟨0, 0, rfl, rfl, hb _⟩
    · intro c fs h; cases h
    · unfold Ex.boxed GoodNames; decide
    · intro g hg
      cases hg with
      | member hm hr =>
        rcases List.mem_cons.1 hm with h | h
        · cases h; cases hr
          exact .leaf ⟨fun c hc => by cases hc; exact .inr ⟨0, 0, rfl, rfl, hb _⟩, fun c fs h => (by cases h), trivial, trivial⟩
        · cases List.mem_singleton.1 h; cases hr
          exact .leaf ⟨fun c hc => by cases hc; exact .inl ⟨rfl, rfl⟩, fun c fs h => (by cases h), trivial, trivial⟩
  exact ⟨fun g hg => (this g hg).1, fun g hg => (this g hg).2.1, fun g hg => (this g hg).2.2.1, fun g hg => (this g hg).2.2.2⟩

example : Shaped Ex.env Ex.boxed (.dict [(.str c!"a", .int 7), (.str c!"b", .int 8)]) ∧
    instantiate Ex.env Ex.boxing 3 Ex.boxed (.dict [(.str c!"a", .int 7), (.str c!"b", .int 8)]) none =
      .ok (.list [.dict [(.str c!"a", .int 7), (.str c!"b", .list [.int 8])]]) := by
  refine ⟨.structure (by simp) (by simp) ?_, rfl⟩
  intro e he name f g hk hf hg
  have hm := lookup_mem hf
  rcases List.mem_cons.1 hm with h | h
  · cases h; cases hg; exact .leaf
  · cases List.mem_singleton.1 h; cases hg; exact .leaf

end Scheme
