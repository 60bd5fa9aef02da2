import Verif.Spec.Cycle
import Verif.Props.Instantiate
import Verif.Props.Wire
import Verif.Props.Python

/-! C31 and C89: data becomes objects, objects become data, nothing is lost or reordered. -/

namespace Scheme
namespace Cyc

/-- C86. Equal values are both true or both false. -/
theorem _root_.Scheme.C86_equal_truth (a b : Val) (h : PyEqual a b) : a.truthy = b.truthy := by
  have hnil : ∀ {α : Type} {l l' : List α}, l.length = l'.length → l.isEmpty = l'.isEmpty := by
    intro α l l' h
    cases l <;> cases l' <;> simp_all
  cases h with
  | number ha hb hx =>
    have key : ∀ {a b : Val} {x : PyFloat}, Number a x → Number b x → a.truthy = false → b.truthy = false := by
      intro a b x ha hb hf
      rw [C86_falsy_iff] at hf ⊢
      rw [number_iff] at ha
      cases hf with
      | zero h0 =>
        rw [number_iff, ha] at h0; cases h0
        exact .zero hb
      | _ => simp [numOf] at ha
    cases h1 : a.truthy with
    | false => exact (key ha hb h1).symm
    | true =>
      cases h2 : b.truthy with
      | true => rfl
      | false => rw [key hb ha h2] at h1; cases h1
  | list hl _ => simp only [Val.truthy, hnil hl]
  | tuple hl _ => simp only [Val.truthy, hnil hl]
  | dict _ hl _ _ => simp only [Val.truthy, hnil hl]
  | _ => rfl

section
variable {env : Env} {o : Outer} {rec : Inst} {ext : Ext}

theorem items {item : Field} {l p : List Val}
    (hr : ∀ g, resolve env item = some g → ∀ v ∈ l, ∀ x, rec g v none = .ok x → ext g x = .ok v)
    (h : instItems env rec item l = .ok p) : extractItems env ext item p = .ok l := by
  induction l generalizing p with
  | nil => simp only [instItems, Except.ok.injEq] at h; subst h; rfl
  | cons v r ih =>
    simp only [instItems, except_bind_eq_ok, except_pure, Except.ok.injEq] at h
    obtain ⟨x, hx, r', hr', rfl⟩ := h
    obtain ⟨g, hg, hx⟩ := instChild_ok.1 hx
    have hw := hr g hg v (List.mem_cons_self ..) x hx
    have ho := ih (fun g hg v hv => hr g hg v (List.mem_cons_of_mem _ hv)) hr'
    simp [extractItems, childOk_of hg hw, ho]

theorem entries {value : Field} {d p : List (Val × Val)}
    (hr : ∀ g, resolve env value = some g → ∀ e ∈ d, ∀ x, rec g e.2 (some e.1) = .ok x → ext g x = .ok e.2)
    (h : instEntries env rec value d = .ok p) : extractEntries env ext value p = .ok d := by
  induction d generalizing p with
  | nil => simp only [instEntries, Except.ok.injEq] at h; subst h; rfl
  | cons e r ih =>
    obtain ⟨k, v⟩ := e
    simp only [instEntries, except_bind_eq_ok, except_pure, Except.ok.injEq] at h
    obtain ⟨x, hx, r', hr', rfl⟩ := h
    obtain ⟨g, hg, hx⟩ := instChild_ok.1 hx
    have hw := hr g hg (k, v) (List.mem_cons_self ..) x hx
    have ho := ih (fun g hg v hv => hr g hg v (List.mem_cons_of_mem _ hv)) hr'
    simp only at hw
    simp [extractEntries, childOk_of hg hw, ho]

theorem slots {fs : List Field} {pre l p : List Val} (hl : l.length = fs.length)
    (hr : ∀ q ∈ fs.zip l, ∀ g, resolve env q.1 = some g → ∀ x, rec g q.2 none = .ok x → ext g x = .ok q.2)
    (h : instSlots env rec (.tuple (pre ++ l)) pre.length fs = .ok p) : extractSlots env ext fs p = .ok l := by
  induction fs generalizing pre l p with
  | nil =>
    simp only [instSlots, Except.ok.injEq] at h; subst h
    cases l with
    | nil => rfl
    | cons a r => simp at hl
  | cons f fs ih =>
    cases l with
    | nil => simp at hl
    | cons v r =>
      simp only [instSlots, except_bind_eq_ok, except_pure, Except.ok.injEq] at h
      obtain ⟨v', hv', x, hx, r', hr', rfl⟩ := h
      have : v' = v := by
        simp [indexAt] at hv'
        exact hv'.symm
      subst this
      obtain ⟨g, hg, hx⟩ := instChild_ok.1 hx
      rw [List.zip_cons_cons] at hr
      have hw := hr (f, v') (List.mem_cons_self ..) g hg x hx
      have ho := @ih (pre ++ [v']) r r' (by simpa using hl) (fun q hq => hr q (List.mem_cons_of_mem _ hq)) (by simpa using hr')
      simp only at hw
      simp [extractSlots, childOk_of hg hw, ho]

theorem inst_keys {defn : List (Str × Field)} {d p : List (Val × Val)} (h : instMembers env rec defn d = .ok p) :
    p.map (·.1) = d.map (·.1) := by
  induction d generalizing p with
  | nil => simp only [instMembers, Except.ok.injEq] at h; subst h; rfl
  | cons e r ih =>
    obtain ⟨k, v⟩ := e
    simp only [instMembers, except_bind_eq_ok, except_pure, Except.ok.injEq] at h
    obtain ⟨f, hf, x, hx, r', hr', rfl⟩ := h
    simp [ih hr']

theorem member_none {p : List (Val × Val)} {name : Str} (h : given p name = none) :
    memberValue o (.dict p) (.str name) = .ok none := by
  simp [memberValue, getMember, dictGet_str_eq_given, h]

theorem member_some {p : List (Val × Val)} {name : Str} {x : Val} (h : given p name = some x) (hx : x ≠ .none) :
    memberValue o (.dict p) (.str name) = .ok (some x) := by
  unfold memberValue getMember
  simp only [dictGet_str_eq_given, h]

/-- Extracting the members in their declared order. -/
theorem aligned {p : List (Val × Val)} : ∀ (ds : List (Str × Field)) (r : List (Val × Val)),
    (r.map (·.1)).Sublist (ds.map fun q => Val.str q.1) → (ds.map (·.1)).Nodup →
    (∀ e ∈ ds, ∀ v, (Val.str e.1, v) ∈ r → ∃ x g, given p e.1 = some x ∧ x ≠ .none ∧ resolve env e.2 = some g ∧ ext g x = .ok v) →
    (∀ e ∈ ds, Val.str e.1 ∉ r.map (·.1) → given p e.1 = none) → extractMembers env o ext (.dict p) ds = .ok r
  | [], r, hs, _, _, _ => by
    have : r = [] := by simpa using hs
    subst this; rfl
  | (name, f) :: ds, r, hs, hnd, h1, h2 => by
    rw [List.map_cons, List.nodup_cons] at hnd
    rcases List.sublist_cons_iff.1 (by simpa using hs) with hs' | ⟨q, hq, hs'⟩
    · have hout : Val.str name ∉ r.map (·.1) := by
        intro hm
        obtain ⟨q, hq, he⟩ := List.mem_map.1 (hs'.subset hm)
        cases he
        exact hnd.1 (List.mem_map.2 ⟨q, hq, rfl⟩)
      have ho := aligned ds r hs' hnd.2 (fun e he => h1 e (List.mem_cons_of_mem _ he)) (fun e he => h2 e (List.mem_cons_of_mem _ he))
      simp [extractMembers, member_none (h2 _ (List.mem_cons_self ..) hout), ho]
    · cases r with
      | nil => cases hq
      | cons e r =>
        obtain ⟨k, v⟩ := e
        simp only [List.map_cons, List.cons.injEq] at hq
        obtain ⟨rfl, rfl⟩ := hq
        obtain ⟨x, g, hx, hxn, hg, hw⟩ := h1 (name, f) (List.mem_cons_self ..) v (List.mem_cons_self ..)
        have hne : ∀ e ∈ ds, Val.str e.1 ≠ Val.str name := by
          intro e he h
          exact hnd.1 (List.mem_map.2 ⟨e, he, Val.str.inj h⟩)
        have ho := aligned ds r hs' hnd.2 (fun e he v' hv' => h1 e (List.mem_cons_of_mem _ he) v' (List.mem_cons_of_mem _ hv'))
          (fun e he hn => h2 e (List.mem_cons_of_mem _ he) (by
            rw [List.map_cons, List.mem_cons, not_or]; exact ⟨hne e he, hn⟩))
        simp only at hx hg
        simp [extractMembers, member_some hx hxn, childOk_of hg hw, ho]

theorem lookup_of_nodup {defn : List (Str × Field)} (hnd : (defn.map (·.1)).Nodup) {e : Str × Field} (he : e ∈ defn) :
    defn.lookup e.1 = some e.2 := by
  induction defn with
  | nil => cases he
  | cons a r ih =>
    rw [List.map_cons, List.nodup_cons] at hnd
    obtain ⟨an, af⟩ := a
    rw [List.lookup_cons]
    rcases List.mem_cons.1 he with rfl | he
    · simp
    · have : (e.1 == an) = false := by
        simp only [beq_eq_false_iff_ne, ne_eq]
        intro h
        exact hnd.1 (List.mem_map.2 ⟨e, he, h⟩)
      simp only [this]
      exact ih hnd.2 he

theorem keys_nodup {defn : List (Str × Field)} {d : List (Val × Val)} (hnd : (defn.map (·.1)).Nodup)
    (h : (d.map (·.1)).Sublist (defn.map fun p => Val.str p.1)) : (d.map (·.1)).Nodup := by
  refine List.Nodup.sublist h ?_
  rw [List.Nodup, List.pairwise_map] at hnd ⊢
  exact hnd.imp fun h h' => h (Val.str.inj h')

theorem given_none_of {p : List (Val × Val)} {name : Str} (h : Val.str name ∉ p.map (·.1)) : given p name = none := by
  cases hg : given p name with
  | none => rfl
  | some x => exact absurd (List.mem_map.2 ⟨_, mem_of_given hg, rfl⟩) h

theorem members {defn : List (Str × Field)} {d p : List (Val × Val)} (hnd : (defn.map (·.1)).Nodup)
    (hd : (d.map (·.1)).Sublist (defn.map fun p => Val.str p.1))
    (hr : ∀ e ∈ d, ∀ name f g, e.1 = .str name → defn.lookup name = some f → resolve env f = some g →
      ∀ x, rec g e.2 (some (.str name)) = .ok x → x ≠ .none ∧ ext g x = .ok e.2)
    (h : instMembers env rec defn d = .ok p) : extractMembers env o ext (.dict p) defn = .ok d := by
  obtain ⟨hkeys, hp⟩ := instMembers_spec h
  have hpk := inst_keys h
  have hdn := keys_nodup hnd hd
  refine aligned defn d hd hnd (fun e he v hv => ?_) fun e he hn => given_none_of (by rw [hpk]; exact hn)
  have hlk := lookup_of_nodup hnd he
  have hm : Val.str e.1 ∈ p.map (·.1) := by rw [hpk]; exact List.mem_map.2 ⟨_, hv, rfl⟩
  obtain ⟨q, hq, hqe⟩ := List.mem_map.1 hm
  obtain ⟨k, x⟩ := q
  simp only at hqe; subst hqe
  have hgx := given_of_mem (hpk ▸ hdn) hq
  obtain ⟨v', f, g, hv', hf, hg, hi⟩ := (hp _ _).1 hgx
  rw [given_of_mem hdn hv] at hv'; cases hv'
  rw [hlk] at hf; cases hf
  obtain ⟨hxn, hw⟩ := hr _ hv _ _ _ rfl hlk hg x hi
  exact ⟨x, g, hgx, hxn, hg, hw⟩

end

/-- Instantiating followed by extracting, also reporting that a value other than None stays one. -/
theorem exact (env : Env) (o : Outer) (n : Nat) (f : Field) (v : Val) (key : Option Val) (x : Val)
    (hi : Everywhere env (Inverse o) f) (hu : Everywhere env NotUnion f) (hg : Everywhere env GoodNames f)
    (hp : Everywhere env PlainDisc f) (hs : InOrder env f v) (h : instantiate env o n f v key = .ok x) :
    (v ≠ .none → x ≠ .none) ∧ extract env o true [] n f x = .ok v := by
  induction n generalizing f v key x with
  | zero => simp [instantiate] at h
  | succ n ih =>
    have hf : ∀ s, f ≠ .undef s := by
      rintro s rfl
      simp [instantiate, instStep] at h
    have hstep : instantiate env o (n + 1) f v key = if v.isNone then .ok .none else
        (instBody env (instantiate env o n) f v >>= fun w => instOwn o f w key) := by
      cases f with
      | union c fs => exact absurd rfl (hu.here c fs)
      | undef s => exact absurd rfl (hf s)
      | _ => rfl
    rw [hstep] at h
    have hexc : excluded o f [] = false := by
      cases f <;> simp [excluded, screen]
    have hext : ∀ y, extract env o true [] (n + 1) f y = if y.isNone then .ok .none else
        (applyExtractor o f y >>= fun w => extractBody env o true (extract env o true [] n) f w) := by
      intro y
      cases f with
      | undef s => exact absurd rfl (hf s)
      | _ => simp only [extract, extractStep, hexc, Bool.false_eq_true, if_false]
    by_cases hv : v = .none
    · subst hv
      simp only [Val.isNone, if_true, Except.ok.injEq] at h
      subst h
      exact ⟨fun h => absurd rfl h, by simp [hext, Val.isNone]⟩
    · have hvn : v.isNone = false := by cases v <;> simp_all [Val.isNone]
      simp only [hvn, Bool.false_eq_true, if_false, except_bind_eq_ok] at h
      obtain ⟨y, hy, h⟩ := h
      suffices hsuf : y ≠ .none ∧ extractBody env o true (extract env o true [] n) f y = .ok v by
        obtain ⟨hyn, hw⟩ := hsuf
        obtain ⟨hxn, hx⟩ := instOwn_inverse hi.here hu.here hf hyn h
        refine ⟨fun _ => hxn, ?_⟩
        have hxn' : x.isNone = false := by cases x <;> simp_all [Val.isNone]
        simp [hext, hxn', hx, hw]
      have hch : ∀ g, Child env f g → ∀ v key x, InOrder env g v → instantiate env o n g v key = .ok x →
          (v ≠ .none → x ≠ .none) ∧ extract env o true [] n g x = .ok v :=
        fun g hc v key x => ih g v key x (hi.child hc) (hu.child hc) (hg.child hc) (hp.child hc)
      cases hs with
      | null => exact absurd rfl hv
      | leaf =>
        simp only [instBody, Except.ok.injEq] at hy
        subst hy
        exact ⟨hv, rfl⟩
      | @sequence c item mn mx u l hsh =>
        simp only [instBody, iterate, except_bind_ok, except_map_eq_ok] at hy
        obtain ⟨p, hp', rfl⟩ := hy
        have ho := items (ext := extract env o true [] n) (fun g hg v hv x hx =>
          (hch g (.item hg) v none x (hsh g hg v hv) hx).2) hp'
        exact ⟨by simp, by simp [extractBody, extractSequence, ho, Except.map]⟩
      | @map c kf value req d hsh =>
        simp only [instBody, except_map_eq_ok] at hy
        obtain ⟨p, hp', rfl⟩ := hy
        have ho := entries (ext := extract env o true [] n) (fun g hg e he x hx =>
          (hch g (.value hg) e.2 _ x (hsh g hg e he) hx).2) hp'
        exact ⟨by simp, by simp [extractBody, extractMap, ho, Except.map]⟩
      | @tuple c fs l hl hsh =>
        simp only [instBody, except_map_eq_ok] at hy
        obtain ⟨p, hp', rfl⟩ := hy
        have ho := slots (ext := extract env o true [] n) (pre := []) hl (fun q hq g hg x hx =>
          (hch g (.tuple (List.of_mem_zip hq).1 hg) q.2 none x (hsh q hq g hg) hx).2) hp'
        exact ⟨by simp, by simp [extractBody, extractTuple, ho, Except.map]⟩
      | @«structure» c defn s ko d hd hn hsh =>
        simp only [instBody, except_map_eq_ok] at hy
        obtain ⟨p, hp', rfl⟩ := hy
        have ho := members (o := o) (ext := extract env o true [] n) hg.here hd
          (fun e he name f g hk hf hgr x hx => by
            obtain ⟨h1, h2⟩ := hch g (.member (lookup_mem hf) hgr) e.2 _ x (hsh e he name f g hk hf hgr) hx
            exact ⟨h1 (hn e he), h2⟩) hp'
        exact ⟨by simp, by simp [extractBody, extractPlain, ho, Except.map]⟩
      | @poly c disc vs s ko d id defn0 hid ht hvar0 hd hn hsh =>
        simp only [instBody, dictGet_str_eq_given, hid, ht, if_true, except_bind_eq_ok, except_map_eq_ok] at hy
        obtain ⟨defn, hdef, p, hp', rfl⟩ := hy
        obtain ⟨i, hmem, hvar⟩ : ∃ i, (i, defn) ∈ vs ∧ variantIn vs id = some defn := by
          unfold variantAt at hdef
          split at hdef
          · split at hdef
            · rename_i hv'; cases hdef; obtain ⟨i, hi, -⟩ := variantGet_mem' hv'; exact ⟨i, hi, by rw [variantIn_eq]; exact hv'⟩
            · cases hdef
          · cases hdef
        have hdd : defn = defn0 := Option.some.inj (hvar.symm.trans hvar0)
        subst hdd
        have hgn : (defn.map (·.1)).Nodup := (hg.here _ hmem).1
        have ho := members (o := o) (ext := extract env o true [] n) hgn hd
          (fun e he name f g hk hf hgr x hx => by
            obtain ⟨h1, h2⟩ := hch g (.variant hmem (lookup_mem hf) hgr) e.2 _ x (hsh e he name f g hk hf hgr) hx
            exact ⟨h1 (hn e he), h2⟩) hp'
        have hpid : given p (disc.name.getD []) = some id := by
          obtain ⟨c', k', hdl⟩ := (hg.here _ hmem).2
          obtain ⟨c'', k'', hdl', hin⟩ := hp.here _ hmem _ hdl
          cases hdl'
          refine ((instMembers_spec hp').2 _ _).2 ⟨id, _, .leaf c' k', hid, hdl, rfl, ?_⟩
          obtain ⟨name, f, g, hk, hfl, hgr⟩ := (instMembers_spec hp').1 _ (mem_of_given hid)
          cases n with
          | zero =>
            exfalso
            have hmem' := mem_of_given hid
            clear hstep hext hch ih hid hd hn hsh ho
            induction d generalizing p with
            | nil => cases hmem'
            | cons e r _ =>
              obtain ⟨k, v⟩ := e
              simp only [instMembers, except_bind_eq_ok] at hp'
              obtain ⟨f, -, x, hx, -⟩ := hp'
              obtain ⟨g, -, hx⟩ := instChild_ok.1 hx
              simp [instantiate] at hx
          | succ n =>
            have hidn := isNone_of_truthy ht
            simp [instantiate, instStep, hidn, instBody, instOwn, Field.common?, hin]
        exact ⟨by simp, by
          simp [extractBody, extractPoly, getMember, dictGet_str_eq_given, hpid, ht, hdef, ho, Except.map]⟩

/-- C31. When the members of the value are in their declared order, as in everything that was read, extracting yields
exactly the value again. -/
theorem _root_.Scheme.C31_exact (env : Env) (o : Outer) (n : Nat) (f : Field) (v : Val) (key : Option Val) (x : Val)
    (hi : Everywhere env (Inverse o) f) (hu : Everywhere env NotUnion f) (hg : Everywhere env GoodNames f)
    (hp : Everywhere env PlainDisc f) (hs : InOrder env f v) (h : instantiate env o n f v key = .ok x) :
    extract env o true [] n f x = .ok v :=
  (exact env o n f v key x hi hu hg hp hs h).2

theorem nulls_list {l : List Val} {x : Val} (h : NoNulls (.list l)) (hx : x ∈ l) : NoNulls x :=
  fun d hd => h d (.list hx hd)

theorem nulls_tuple {l : List Val} {x : Val} (h : NoNulls (.tuple l)) (hx : x ∈ l) : NoNulls x :=
  fun d hd => h d (.tuple hx hd)

theorem nulls_entry {d : List (Val × Val)} {e : Val × Val} (h : NoNulls (.dict d)) (he : e ∈ d) : NoNulls e.2 :=
  fun d' hd => h d' (.value he hd)

theorem slotDict_order : ∀ (slots : List (Str × Option Val)),
    ((slotDict slots).map (·.1)).Sublist (slots.map fun p => Val.str p.1)
  | [] => .slnil
  | (k, none) :: r => by rw [slotDict_cons_none]; exact .cons _ (slotDict_order r)
  | (k, some v) :: r => by rw [slotDict_cons_some]; exact .cons_cons _ (slotDict_order r)

theorem names_str {α β : Type} {l : List (Str × α)} {l' : List (Str × β)} (h : l.map (·.1) = l'.map (·.1)) :
    (l.map fun p => Val.str p.1) = l'.map fun p => Val.str p.1 := by
  have := congrArg (List.map Val.str) h
  simpa [List.map_map, Function.comp_def] using this

theorem slotDict_mem {slots : List (Str × Option Val)} {e : Val × Val} (h : e ∈ slotDict slots) :
    ∃ name v, e = (.str name, v) ∧ (name, some v) ∈ slots := by
  unfold slotDict at h
  obtain ⟨⟨k, o⟩, hx, h⟩ := List.mem_filterMap.1 h
  rw [Option.map_eq_some_iff] at h
  obtain ⟨v, rfl, rfl⟩ := h
  exact ⟨k, v, rfl, hx⟩

/-- The identity of what a polymorphic structure has read is that of its variant. -/
theorem poly_slot {env : Env} {n : Nat} {disc : Field} {vs : List (Val × List (Str × Field))} {d : List (Val × Val)} {raw id : Val}
    {defn : List (Str × Field)} {ph : Phase} {ser : Bool} {a : List Str} {slots : List (Str × Option Val)}
    (hdisc : resolve env disc = some disc)
    (hvs : ∀ i defn, (i, defn) ∈ vs → i ≠ .none ∧ (defn.map (·.1)).Nodup ∧ Tagged disc defn)
    (hd : ∀ v ∈ vs, v.1.truthy = true)
    (hraw : given d (disc.name.getD []) = some raw) (hnn : raw ≠ .none)
    (hid : process env n disc raw ph ser (a ++ ['.' :: disc.name.getD []]) = .ok id) (hv : variantFor vs id = some defn)
    (h1 : slots.map (·.1) = defn.map (·.1)) (h2 : ∀ x ∈ slots, SlotOk env n defn d ph ser false a x.1 x.2) :
    ∃ i defn', vs.find? (fun e => pyEq id e.1) = some (i, defn') ∧ defn' = defn ∧ (i, defn') ∈ vs ∧ id.truthy = true ∧
      given (slotDict slots) (disc.name.getD []) = some id := by
  obtain ⟨e, he, hde⟩ : ∃ e, vs.find? (fun e => pyEq id e.1) = some e ∧ e.2 = defn := by
    have hv' := hv
    unfold variantFor at hv'
    rwa [Option.map_eq_some_iff] at hv'
  obtain ⟨i, defn'⟩ := e
  simp only at hde
  subst hde
  have hmem : (i, defn') ∈ vs := List.mem_of_find?_eq_some he
  obtain ⟨hi, hnd, m, hlk, htag⟩ := hvs i defn' hmem
  have ht : id.truthy = true := by
    rw [C86_equal_truth id i ((C86_equal_iff _ _).1 (List.find?_some (p := fun e : Val × List (Str × Field) => pyEq id e.1) he))]
    exact hd _ hmem
  have hdm : disc.name.getD [] ∈ defn'.map (·.1) := List.mem_map.2 ⟨_, lookup_mem hlk, rfl⟩
  refine ⟨i, defn', he, rfl, hmem, ht, ?_⟩
  rw [← h1] at hdm
  obtain ⟨x, hx, hxn⟩ := List.mem_map.1 hdm
  have hg := given_slotDict (h1 ▸ hnd) hx
  rw [hxn] at hg
  rw [hg]
  obtain ⟨g, c', ⟨f, hl, hres, hc'⟩, _, hcase⟩ := h2 x hx
  rw [hxn, hlk] at hl
  cases hl
  rw [tag_resolve htag hdisc] at hres
  cases hres
  rw [hxn, hraw, memberInput_given] at hcase
  have : raw.isNone = false := by
    cases hr : raw.isNone
    · rfl
    · exact absurd ((isNone_iff _).1 hr) hnn
  rw [this] at hcase
  simp only [Bool.and_false, Bool.false_eq_true, if_false, reduceCtorEq, false_and, false_or, Option.some.injEq] at hcase
  obtain ⟨v, w, rfl, hw, hp⟩ := hcase
  rw [← tag_same htag hid hp]
  exact hw

/-- What was read is in order. -/
theorem read_inOrder (env : Env) (n : Nat) (f : Field) (hs : Everywhere env (Settled env) f) (hu : Everywhere env NotUnion f)
    (hd : Everywhere env AsDeclared f) (u w : Val) (ph : Phase) (ser : Bool) (a : List Str)
    (h : process env n f u ph ser a = .ok w) (hw : NoNulls w) : InOrder env f w := by
  induction n generalizing f u w a with
  | zero => cases h
  | succ n ih =>
    have down : ∀ g, Child env f g → ∀ u w a, process env n g u ph ser a = .ok w → NoNulls w → InOrder env g w :=
      fun g hc u w a h hw => ih g (hs.child hc) (hu.child hc) (hd.child hc) u w a h hw
    cases f with
    | undef s => cases h
    | leaf c k => exact .leaf
    | union c fs => exact absurd rfl (hu.here c fs)
    | sequence c item mn mx un =>
      obtain ⟨hpre, -⟩ := hs.here.1 c rfl
      rcases (seq_ok hpre).1 h with ⟨rfl, rfl, -⟩ | ⟨l, rs, rfl, rfl, hlen, -, -, h3, -⟩
      · exact .null
      · refine .sequence fun g hg x hx => ?_
        obtain ⟨i, hi⟩ := List.mem_iff_getElem?.1 hx
        have hil : i < l.length := by rw [← hlen]; exact (List.getElem?_eq_some_iff.1 hi).1
        obtain ⟨g', hg', hp⟩ := h3 i _ x (List.getElem?_eq_getElem hil) hi
        rw [hg] at hg'; cases hg'
        exact down g (.item hg) _ _ _ hp (nulls_list hw hx)
    | tuple c fs =>
      obtain ⟨hpre, -⟩ := hs.here.1 c rfl
      rcases (tup_ok hpre).1 h with ⟨rfl, rfl, -⟩ | ⟨l, rs, -, rfl, h1, h2, h3⟩
      · exact .null
      · refine .tuple (h2.trans h1) fun p hp g hg => ?_
        obtain ⟨i, hi⟩ := List.mem_iff_getElem?.1 hp
        obtain ⟨hf, hr⟩ := List.getElem?_zip_eq_some.1 hi
        have hil : i < l.length := by rw [← h2]; exact (List.getElem?_eq_some_iff.1 hr).1
        obtain ⟨g', r, hg', hr', hpr⟩ := h3 i _ _ hf (List.getElem?_eq_getElem hil)
        rw [hg] at hg'; cases hg'
        rw [hr] at hr'; cases hr'
        exact down g (.tuple (List.of_mem_zip hp).1 hg) _ _ _ hpr (nulls_tuple hw (List.of_mem_zip hp).2)
    | map c key value req =>
      obtain ⟨hpre, -⟩ := hs.here.1 c rfl
      rcases (map_ok hpre).1 h with ⟨rfl, rfl, -⟩ | ⟨d, es, rfl, hlen, hes, out, rfl, hout, -⟩
      · exact .null
      · refine .map fun g hg e he => ?_
        have hval : ∀ e ∈ out, ∃ x a, process env n g x ph ser a = .ok e.2 := by
          rw [hout]
          refine foldl_dictSet_values (P := fun r => ∃ x a, process env n g x ph ser a = .ok r) es [] (by simp) ?_
          intro e he
          obtain ⟨i, hi⟩ := List.mem_iff_getElem?.1 he
          have hil : i < d.length := by rw [← hlen]; exact (List.getElem?_eq_some_iff.1 hi).1
          obtain ⟨k', r, e1, _, _, g', st, hg', _, hp⟩ := hes i d[i].1 d[i].2 (List.getElem?_eq_getElem hil)
          rw [hi] at e1; cases e1
          rw [hg] at hg'; cases hg'
          exact ⟨_, _, hp⟩
        obtain ⟨x, a', hp⟩ := hval e he
        exact down g (.value hg) _ _ _ hp (nulls_entry hw he)
    | «structure» c defn strict ko =>
      obtain ⟨hpre, -⟩ := hs.here.1 c rfl
      obtain rfl : ko = [] := hd.here
      rcases (struct_ok hpre hs.here.2).1 h with ⟨rfl, rfl, -⟩ | ⟨d, rfl, -, slots, h1, h2, rfl⟩
      · exact .null
      · simp only [if_true] at h1
        refine .structure ?_ (hw _ .here) fun e he name f g hk hf hg => ?_
        · rw [← names_str h1]; exact slotDict_order slots
        · obtain ⟨nm, v, rfl, hm⟩ := slotDict_mem he
          cases hk
          obtain ⟨g', c', ⟨f', hf', hg', -⟩, -, hcase⟩ := h2 _ hm
          simp only at hf'
          rw [hf] at hf'; cases hf'
          rw [hg] at hg'; cases hg'
          rcases hcase with ⟨-, h⟩ | ⟨x, y, -, h, hp⟩
          · cases h
          · cases h
            exact down g (.member (lookup_mem hf) hg) _ _ _ hp (nulls_entry hw he)
    | poly c disc vs strict ko =>
      obtain ⟨hpre, -⟩ := hs.here.1 c rfl
      obtain ⟨rfl, hdisc, hvs⟩ := hs.here.2
      have hnds : ∀ e ∈ vs, (e.2.map (·.1)).Nodup := fun e he => (hvs e.1 e.2 he).2.1
      rcases (poly_ok hpre hnds).1 h with ⟨rfl, rfl, -⟩ | ⟨d, raw, id, defn, rfl, hraw, hnn, hid, -, hv, -, -, slots, h1, h2, rfl⟩
      · exact .null
      · obtain ⟨i, defn', he, rfl, hmem, ht, hslot⟩ := poly_slot hdisc hvs (fun e he => hd.here e he) hraw hnn hid hv h1 h2
        refine .poly (defn := defn') hslot ht hv ?_ (hw _ .here) fun e he name f g hk hf hg => ?_
        · rw [← names_str h1]; exact slotDict_order slots
        · obtain ⟨nm, v, rfl, hm⟩ := slotDict_mem he
          cases hk
          obtain ⟨g', c', ⟨f', hf', hg', -⟩, -, hcase⟩ := h2 _ hm
          simp only at hf'
          rw [hf] at hf'; cases hf'
          rw [hg] at hg'; cases hg'
          rcases hcase with ⟨-, h⟩ | ⟨x, y, -, h, hp⟩
          · cases h
          · cases h
            exact down g (.variant hmem (lookup_mem hf) hg) _ _ _ hp (nulls_entry hw he)

/-- C89. What was read (or only checked), without None among its entries, is given back exactly after it was made into
objects. -/
theorem _root_.Scheme.C89_cycle (env : Env) (o : Outer) (n m : Nat) (f : Field) (u w x : Val) (ph : Phase) (ser : Bool)
    (a : List Str) (key : Option Val) (hs : Everywhere env (Settled env) f) (hu : Everywhere env NotUnion f)
    (hd : Everywhere env AsDeclared f) (hi : Everywhere env (Inverse o) f) (hg : Everywhere env GoodNames f)
    (hp : Everywhere env PlainDisc f) (h : process env n f u ph ser a = .ok w) (hw : NoNulls w)
    (hx : instantiate env o m f w key = .ok x) : extract env o true [] m f x = .ok w :=
  C31_exact env o m f w key x hi hu hg hp (read_inOrder env n f hs hu hd u w ph ser a h hw) hx

/-! ### Objects can be made of what was read -/

section
variable {env : Env} {o : Outer} {rec : Inst}

theorem items_ok {item : Field} {l : List Val} (h : ∀ v ∈ l, ∃ g x, resolve env item = some g ∧ rec g v none = .ok x) :
    ∃ p, instItems env rec item l = .ok p := by
  induction l with
  | nil => exact ⟨[], rfl⟩
  | cons v r ih =>
    obtain ⟨g, x, hg, hx⟩ := h v (List.mem_cons_self ..)
    obtain ⟨p, hp⟩ := ih fun v hv => h v (List.mem_cons_of_mem _ hv)
    exact ⟨x :: p, by simp [instItems, instChild_ok.2 ⟨g, hg, hx⟩, hp]⟩

theorem entries_ok {value : Field} {d : List (Val × Val)}
    (h : ∀ e ∈ d, ∃ g x, resolve env value = some g ∧ rec g e.2 (some e.1) = .ok x) :
    ∃ p, instEntries env rec value d = .ok p := by
  induction d with
  | nil => exact ⟨[], rfl⟩
  | cons e r ih =>
    obtain ⟨k, v⟩ := e
    obtain ⟨g, x, hg, hx⟩ := h _ (List.mem_cons_self ..)
    obtain ⟨p, hp⟩ := ih fun v hv => h v (List.mem_cons_of_mem _ hv)
    exact ⟨(k, x) :: p, by simp [instEntries, instChild_ok.2 ⟨g, hg, hx⟩, hp]⟩

theorem slots_ok {l : List Val} : ∀ (fs : List Field) (i : Nat), i + fs.length = l.length →
    (∀ (j : Nat) f, fs[j]? = some f → ∃ v g x, l[i + j]? = some v ∧ resolve env f = some g ∧ rec g v none = .ok x) →
    ∃ p, instSlots env rec (.tuple l) i fs = .ok p
  | [], _, _, _ => ⟨[], rfl⟩
  | f :: fs, i, hl, h => by
    obtain ⟨v, g, x, hv, hg, hx⟩ := h 0 f rfl
    obtain ⟨p, hp⟩ := slots_ok (l := l) fs (i + 1) (by simp at hl; omega) fun j f hf => by
      obtain ⟨v, g, x, hv, hg, hx⟩ := h (j + 1) f hf
      exact ⟨v, g, x, by rw [← hv, Nat.add_right_comm, Nat.add_assoc], hg, hx⟩
    have hi : indexAt (.tuple l) i = .ok v := by
      rw [Nat.add_zero] at hv
      simp [indexAt, hv]
    exact ⟨x :: p, by simp [instSlots, hi, instChild_ok.2 ⟨g, hg, hx⟩, hp]⟩

theorem members_ok {defn : List (Str × Field)} {d : List (Val × Val)}
    (h : ∀ e ∈ d, ∃ name f g x, e.1 = .str name ∧ defn.lookup name = some f ∧ resolve env f = some g ∧
      rec g e.2 (some (.str name)) = .ok x) : ∃ p, instMembers env rec defn d = .ok p := by
  induction d with
  | nil => exact ⟨[], rfl⟩
  | cons e r ih =>
    obtain ⟨k, v⟩ := e
    obtain ⟨name, f, g, x, rfl, hf, hg, hx⟩ := h _ (List.mem_cons_self ..)
    obtain ⟨p, hp⟩ := ih fun v hv => h v (List.mem_cons_of_mem _ hv)
    exact ⟨(.str name, x) :: p, by simp [instMembers, fieldAt, hf, instChild_ok.2 ⟨g, hg, hx⟩, hp]⟩

theorem own_ok {f : Field} (ha : Accepting o f) (v : Val) (key : Option Val) : ∃ x, instOwn o f v key = .ok x := by
  unfold instOwn
  cases hc : f.common? with
  | none => exact ⟨v, rfl⟩
  | some c =>
    cases hi : c.instor with
    | none => exact ⟨v, by simp [hi]⟩
    | some h =>
      simp only [Option.bind_some, hi]
      split
      · exact ⟨v, rfl⟩
      · exact ha c h hc hi v _

end

/-- C89. When the instantiators accept what they are given, objects can be made of everything that was read. -/
theorem _root_.Scheme.C89_instantiable (env : Env) (o : Outer) (n : Nat) (f : Field) (u w : Val) (ph : Phase) (ser : Bool)
    (a : List Str) (key : Option Val) (hs : Everywhere env (Settled env) f) (hu : Everywhere env NotUnion f)
    (hd : Everywhere env AsDeclared f) (ha : Everywhere env (Accepting o) f) (h : process env n f u ph ser a = .ok w) :
    ∃ x, instantiate env o n f w key = .ok x := by
  induction n generalizing f u w a key with
  | zero => cases h
  | succ n ih =>
    have down : ∀ g, Child env f g → ∀ u w a key, process env n g u ph ser a = .ok w → ∃ x, instantiate env o n g w key = .ok x :=
      fun g hc u w a key h => ih g u w a key (hs.child hc) (hu.child hc) (hd.child hc) (ha.child hc) h
    by_cases hw : w = .none
    · subst hw
      cases f with
      | undef s => cases h
      | union c fs => exact absurd rfl (hu.here c fs)
      | _ => exact ⟨.none, rfl⟩
    have hwn : w.isNone = false := by cases w <;> simp_all [Val.isNone]
    suffices hb : ∃ y, instBody env (instantiate env o n) f w = .ok y by
      obtain ⟨y, hy⟩ := hb
      obtain ⟨x, hx⟩ := own_ok ha.here y key
      refine ⟨x, ?_⟩
      cases f with
      | undef s => cases h
      | union c fs => exact absurd rfl (hu.here c fs)
      | _ => simp only [instantiate, instStep, hwn, Bool.false_eq_true, if_false, hy, except_bind_ok, hx]
    cases f with
    | undef s => cases h
    | leaf c k => exact ⟨w, rfl⟩
    | union c fs => exact absurd rfl (hu.here c fs)
    | sequence c item mn mx un =>
      obtain ⟨hpre, -⟩ := hs.here.1 c rfl
      rcases (seq_ok hpre).1 h with ⟨rfl, rfl, -⟩ | ⟨l, rs, rfl, rfl, hlen, -, -, h3, -⟩
      · exact absurd rfl hw
      · obtain ⟨p, hp⟩ := items_ok (env := env) (rec := instantiate env o n) (item := item) (l := rs) fun x hx => by
          obtain ⟨i, hi⟩ := List.mem_iff_getElem?.1 hx
          have hil : i < l.length := by rw [← hlen]; exact (List.getElem?_eq_some_iff.1 hi).1
          obtain ⟨g, hg, hp⟩ := h3 i _ x (List.getElem?_eq_getElem hil) hi
          obtain ⟨y, hy⟩ := down g (.item hg) _ _ _ none hp
          exact ⟨g, y, hg, hy⟩
        exact ⟨.list p, by simp [instBody, iterate, hp, Except.map]⟩
    | tuple c fs =>
      obtain ⟨hpre, -⟩ := hs.here.1 c rfl
      rcases (tup_ok hpre).1 h with ⟨rfl, rfl, -⟩ | ⟨l, rs, -, rfl, h1, h2, h3⟩
      · exact absurd rfl hw
      · obtain ⟨p, hp⟩ := slots_ok (env := env) (rec := instantiate env o n) (l := rs) fs 0 (by omega) fun j f hf => by
          have hjf : j < fs.length := (List.getElem?_eq_some_iff.1 hf).1
          obtain ⟨g, r, hg, hr, hpr⟩ := h3 j _ _ hf (List.getElem?_eq_getElem (h1 ▸ hjf))
          obtain ⟨y, hy⟩ := down g (.tuple (List.mem_of_getElem? hf) hg) _ _ _ none hpr
          exact ⟨r, g, y, by simpa using hr, hg, hy⟩
        exact ⟨.tuple p, by simp [instBody, hp, Except.map]⟩
    | map c kf value req =>
      obtain ⟨hpre, -⟩ := hs.here.1 c rfl
      rcases (map_ok hpre).1 h with ⟨rfl, rfl, -⟩ | ⟨d, es, rfl, hlen, hes, out, rfl, hout, -⟩
      · exact absurd rfl hw
      · have hval : ∀ e ∈ out, ∃ g x a, resolve env value = some g ∧ process env n g x ph ser a = .ok e.2 := by
          rw [hout]
          refine foldl_dictSet_values (P := fun r => ∃ g x a, resolve env value = some g ∧ process env n g x ph ser a = .ok r) es []
            (by simp) ?_
          intro e he
          obtain ⟨i, hi⟩ := List.mem_iff_getElem?.1 he
          have hil : i < d.length := by rw [← hlen]; exact (List.getElem?_eq_some_iff.1 hi).1
          obtain ⟨k', r, e1, _, _, g', st, hg', _, hp⟩ := hes i d[i].1 d[i].2 (List.getElem?_eq_getElem hil)
          rw [hi] at e1; cases e1
          exact ⟨_, _, _, hg', hp⟩
        obtain ⟨p, hp⟩ := entries_ok (env := env) (rec := instantiate env o n) (value := value) (d := out) fun e he => by
          obtain ⟨g, x, a', hg, hp⟩ := hval e he
          obtain ⟨y, hy⟩ := down g (.value hg) _ _ _ (some e.1) hp
          exact ⟨g, y, hg, hy⟩
        exact ⟨.dict p, by simp [instBody, hp, Except.map]⟩
    | «structure» c defn strict ko =>
      obtain ⟨hpre, -⟩ := hs.here.1 c rfl
      rcases (struct_ok hpre hs.here.2).1 h with ⟨rfl, rfl, -⟩ | ⟨d, rfl, -, slots, h1, h2, rfl⟩
      · exact absurd rfl hw
      · obtain ⟨p, hp⟩ := members_ok (env := env) (rec := instantiate env o n) (defn := defn) (d := slotDict slots) fun e he => by
          obtain ⟨nm, v, rfl, hm⟩ := slotDict_mem he
          obtain ⟨g, c', ⟨f, hf, hg, -⟩, -, hcase⟩ := h2 _ hm
          rcases hcase with ⟨-, h⟩ | ⟨x, y, -, h, hp⟩
          · cases h
          · cases h
            obtain ⟨z, hz⟩ := down g (.member (lookup_mem hf) hg) _ _ _ (some (.str nm)) hp
            exact ⟨nm, f, g, z, rfl, hf, hg, hz⟩
        exact ⟨.dict p, by simp [instBody, hp, Except.map]⟩
    | poly c disc vs strict ko =>
      obtain ⟨hpre, -⟩ := hs.here.1 c rfl
      obtain ⟨rfl, hdisc, hvs⟩ := hs.here.2
      have hnds : ∀ e ∈ vs, (e.2.map (·.1)).Nodup := fun e he => (hvs e.1 e.2 he).2.1
      rcases (poly_ok hpre hnds).1 h with ⟨rfl, rfl, -⟩ | ⟨d, raw, id, defn, rfl, hraw, hnn, hid, hh, hv, -, -, slots, h1, h2, rfl⟩
      · exact absurd rfl hw
      · obtain ⟨i, defn', he, rfl, hmem, ht, hslot⟩ := poly_slot hdisc hvs (fun e he => hd.here e he) hraw hnn hid hv h1 h2
        obtain ⟨p, hp⟩ := members_ok (env := env) (rec := instantiate env o n) (defn := defn') (d := slotDict slots) fun e he => by
          obtain ⟨nm, v, rfl, hm⟩ := slotDict_mem he
          obtain ⟨g, c', ⟨f, hf, hg, -⟩, -, hcase⟩ := h2 _ hm
          rcases hcase with ⟨-, h⟩ | ⟨x, y, -, h, hp⟩
          · cases h
          · cases h
            obtain ⟨z, hz⟩ := down g (.variant hmem (lookup_mem hf) hg) _ _ _ (some (.str nm)) hp
            exact ⟨nm, f, g, z, rfl, hf, hg, hz⟩
        have hva : variantAt vs id = .ok defn' := by
          have hv' : variantGet vs id = some defn' := by rw [← variantIn_eq]; exact hv
          simp [variantAt, hh, hv']
        exact ⟨.dict p, by simp [instBody, dictGet_str_eq_given, hslot, ht, hva, hp, Except.map]⟩

/-- C89. The whole way: data from outside is read, made into objects, the objects are made into data again, these are
written, and what was written is read as what had been read first. -/
theorem _root_.Scheme.C89_wire (env : Env) (hz : ZoneLaw env) (o : Outer) (n m : Nat) (f : Field) (u w x : Val) (a : List Str)
    (key : Option Val) (hs : Everywhere env (Settled env) f) (hn : Everywhere env (Sends env) f)
    (hr : Everywhere env (Rereads env) f) (hu : Everywhere env NotUnion f)
    (hd : Everywhere env AsDeclared f) (hi : Everywhere env (Inverse o) f) (hg : Everywhere env GoodNames f)
    (hp : Everywhere env PlainDisc f) (ha : ArrivingAt f u) (h : process env n f u .inbound true a = .ok w) (hw : NoNulls w)
    (hx : instantiate env o m f w key = .ok x) :
    ∃ v s, extract env o true [] m f x = .ok v ∧ process env n f v .outbound true [] = .ok s ∧
      process env n f s .inbound true [] = .ok w := by
  obtain ⟨s, h1, h2⟩ := C72_wire env hz n f hs hn hr u w a ha h
  exact ⟨w, s, C89_cycle env o n m f u w x .inbound true a key hs hu hd hi hg hp h hw hx, h1 [], h2 []⟩

end Cyc

/-! ### A case: a structure of a day and a number, both it and the number made into objects -/

namespace Ex

def postedOn : Field := .leaf { required := true } (.date (some ⟨1900, 1, 1⟩) none)

def postedN : Field := .leaf { instor := some 0, extor := some 0, default := .int 3 } (.integer none none)

def posted : Field := .structure { instor := some 0, extor := some 0 } [(c!"n", postedN), (c!"on", postedOn)] true []

theorem posted_everywhere {P : Field → Prop} (h1 : P posted) (h2 : P postedN) (h3 : P postedOn) : Everywhere Ex.env P posted := by
  refine .mk' h1 fun g hg => ?_
  cases hg with
  | member hm hr =>
    rcases List.mem_cons.1 hm with h | h
    · cases h; cases hr; exact .leaf h2
    · cases List.mem_singleton.1 h; cases hr; exact .leaf h3

theorem posted_inverse : Everywhere Ex.env (Inverse boxing) posted := by
  have hb : ∀ (f : Field) (v key x : Val), v ≠ .none → boxing.inst 0 f v key = .ok x → x ≠ .none ∧ boxing.ext 0 f x = .ok v := by
    rintro f v key x - h; cases h; exact ⟨by simp, rfl⟩
  refine posted_everywhere ?_ ?_ ?_
  · intro c hc; cases hc; exact .inr ⟨0, 0, rfl, rfl, hb _⟩
  · intro c hc; cases hc; exact .inr ⟨0, 0, rfl, rfl, hb _⟩
  · intro c hc; cases hc; exact .inl ⟨rfl, rfl⟩

theorem posted_settled : Everywhere Ex.env (Settled Ex.env) posted := by
  refine posted_everywhere ?_ ?_ ?_
  · exact ⟨fun c hc => by cases hc; exact ⟨rfl, fun h => (by cases h)⟩, by show List.Nodup _; decide⟩
  · exact ⟨fun c hc => by cases hc; exact ⟨rfl, fun h => (by cases h)⟩, trivial⟩
  · exact ⟨fun c hc => by cases hc; exact ⟨rfl, fun h => (by cases h)⟩, trivial⟩

theorem arriving_int (i : Int) : Arriving (.int i) :=
  ⟨fun _ h => (nomatch h), fun _ h => (nomatch h), fun _ h => (nomatch h)⟩

theorem posted_rereads : Everywhere Ex.env (Rereads Ex.env) posted := by
  refine posted_everywhere ?_ ?_ ?_
  · exact ⟨fun c hc => by cases hc; exact .inl arriving_none, trivial⟩
  · exact ⟨fun c hc => by cases hc; exact .inl (arriving_int 3), trivial⟩
  · exact ⟨fun c hc => by cases hc; exact .inl arriving_none, .inr ⟨_, rfl, by decide⟩⟩

/-- Whatever it reads of data from outside survives the whole way, as long as it has no None. -/
example (n m : Nat) (u w x : Val) (ha : Arriving u) (h : process Ex.env n posted u .inbound true [] = .ok w) (hw : NoNulls w)
    (hx : instantiate Ex.env boxing m posted w none = .ok x) :
    ∃ v s, extract Ex.env boxing true [] m posted x = .ok v ∧ process Ex.env n posted v .outbound true [] = .ok s ∧
      process Ex.env n posted s .inbound true [] = .ok w :=
  C89_wire Ex.env (fun d w d' h => by cases h; rfl) boxing n m posted u w x [] none posted_settled
    (posted_everywhere ⟨rfl, by decide⟩ trivial trivial) posted_rereads
    (posted_everywhere (fun _ _ h => nomatch h) (fun _ _ h => nomatch h) (fun _ _ h => nomatch h))
    (posted_everywhere rfl trivial trivial) posted_inverse
    (posted_everywhere (by unfold posted GoodNames; decide) trivial trivial)
    (posted_everywhere trivial trivial trivial) (.inl ha) h hw hx

/-- Such data: the day comes first, the number is missing. -/
example : process Ex.env 3 posted (.dict [(.str c!"on", .str c!"2020-1-2")]) .inbound true [] =
      .ok (.dict [(.str c!"n", .int 3), (.str c!"on", .date ⟨2020, 1, 2⟩)]) ∧
    instantiate Ex.env boxing 3 posted (.dict [(.str c!"n", .int 3), (.str c!"on", .date ⟨2020, 1, 2⟩)]) none =
      .ok (.list [.dict [(.str c!"n", .list [.int 3]), (.str c!"on", .date ⟨2020, 1, 2⟩)]]) := ⟨rfl, rfl⟩

example : Everywhere Ex.env (Accepting boxing) posted :=
  posted_everywhere (fun c h hc hi => by cases hc; cases hi; exact fun v _ => ⟨.list [v], rfl⟩)
    (fun c h hc hi => by cases hc; cases hi; exact fun v _ => ⟨.list [v], rfl⟩) (fun c h hc hi => by cases hc; cases hi)

end Ex

/-! ### The restrictions are needed -/

/-- C89. With `key_order` the members are read in that order and extracted in the declared one. -/
theorem C89_key_order :
    let f : Field := .structure {} [(c!"a", Ex.int), (c!"b", Ex.int)] true [c!"b", c!"a"]
    let w : Val := .dict [(.str c!"b", .int 2), (.str c!"a", .int 1)]
    process Ex.env 2 f (.dict [(.str c!"a", .int 1), (.str c!"b", .int 2)]) .inbound true [] = .ok w ∧
    instantiate Ex.env Ex.outer 2 f w none = .ok w ∧
    extract Ex.env Ex.outer true [] 2 f w = .ok (.dict [(.str c!"a", .int 1), (.str c!"b", .int 2)]) := by
  refine ⟨rfl, rfl, ?_⟩
  simp [extract, extractStep, excluded, screen, Val.isNone, applyExtractor, extractor, Field.common?, extractBody, extractPlain,
    extractMembers, memberValue, getMember, dictGet, pyEq, Except.map, notExcluded, extractChild, resolve, Ex.int]

/-- C89. A variant whose identity is falsy is read, but cannot be made into an object. -/
theorem C89_falsy_identity :
    let tag (x : Val) : Field := .leaf { name := some c!"kind", required := true, constant := x } (.integer none none)
    let f : Field := .poly {} (tag .none) [(.int 0, [(c!"kind", tag (.int 0))])] true []
    let w : Val := .dict [(.str c!"kind", .int 0)]
    process Ex.env 2 f w .inbound true [] = .ok w ∧
    instantiate Ex.env Ex.outer 2 f w none = .error (.py .keyError) := ⟨rfl, rfl⟩

end Scheme
