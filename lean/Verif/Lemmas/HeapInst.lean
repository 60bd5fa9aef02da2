import Verif.Lemmas.HeapExtract

/-! Instantiation and interpolation on the heap correspond to those of values. -/

namespace Scheme

open HM

namespace HT

variable {env : Env} {o : Outer} {O : HOuter} {K K0 : Nat → Prop} {hB : Heap}

/-! ### instantiate -/

/-- In every later heap, `instantiate` agrees with the function on values, with and without a key. -/
def IServes (K0 : Nat → Prop) (h0 : Heap) (p : HVal → Option HVal → HM HVal) (q : Val → Option Val → Except Exn Val) : Prop :=
  ∀ K h x v y key, (∀ i, K0 i → K i) → (∀ i, K i → i < h.length) → Retains h0 h → RealKeys v → Depicts (part h K) x v →
    ODepicts (part h K) y key → Agrees K h ((p x y).run h) (q v key)

theorem map_eq_bind {α β : Type} (r : Except Exn α) (g : α → β) : r.map g = r >>= fun x => .ok (g x) := by cases r <;> rfl

theorem instItems_eq (rec : Inst) (item : Field) : ∀ vs, instItems env rec item vs =
    vAll (fun v => (instChild env rec item v none).map some) vs
  | [] => rfl
  | v :: vs => by
    unfold instItems vAll
    rw [instItems_eq rec item vs, map_eq_bind, bind_assoc]
    rfl

theorem instSlots_eq (rec : Inst) (value : Val) : ∀ fs (i : Nat), instSlots env rec value i fs =
    vSlots (indexAt value) (fun f v => (instChild env rec f v none).map some) i fs
  | [], i => by unfold instSlots vSlots; rfl
  | f :: fs, i => by
    unfold instSlots vSlots
    rw [instSlots_eq rec value fs (i + 1)]
    refine bind_congr fun v => ?_
    rw [map_eq_bind, bind_assoc]
    rfl

theorem instEntries_eq (rec : Inst) (value : Field) : ∀ vs, instEntries env rec value vs =
    vEntries (fun k v => (instChild env rec value v (some k)).map some) vs
  | [] => rfl
  | (k, v) :: vs => by
    unfold instEntries vEntries
    rw [instEntries_eq rec value vs, map_eq_bind, bind_assoc]
    rfl

theorem instMembers_eq (rec : Inst) (defn : List (Str × Field)) : ∀ vs, instMembers env rec defn vs =
    vEntries (fun k v => fieldAt defn k >>= fun f => (instChild env rec f v (some k)).map some) vs
  | [] => rfl
  | (k, v) :: vs => by
    unfold instMembers vEntries
    rw [instMembers_eq rec defn vs, bind_assoc]
    refine bind_congr fun f => ?_
    rw [map_eq_bind, bind_assoc]
    rfl

/-- What the loop of a structure with a falsy identity does with each entry. -/
def vInstIdentity (variants : List (Val × List (Str × Field))) (k : Val) : Except Exn (Option Val) :=
  match variantGet variants k with
  | some _ => .error (.py .attributeError)
  | none => .error (.py .keyError)

theorem instIdentities_eq (variants : List (Val × List (Str × Field))) (vs : List (Val × Val)) : instIdentities variants vs =
    vEntries (fun k _ => vInstIdentity variants k) vs := by
  cases vs with
  | nil => rfl
  | cons e r =>
    obtain ⟨k, v⟩ := e
    unfold instIdentities vEntries vInstIdentity
    dsimp only
    cases variantGet variants k <;> rfl

theorem agreesO_some {h : Heap} {p : HM HVal} {r : Except Exn Val} (hg : Agrees K h (p.run h) r) :
    AgreesO K h ((do return some (← p) : HM (Option HVal)).run h) (r.map some) := by
  rw [map_eq_bind]
  exact Sim.bind hg fun h' y w hk hy => Sim.ok hk (.some hy)

theorem hInstChild_good {hrec : HInst} {rec : Inst} {f : Field} (hr : ∀ g, resolve env f = some g → IServes K0 hB (hrec g) (rec g)) :
    IServes K0 hB (hInstChild env hrec f) (instChild env rec f) := by
  intro K h x v y key hK0 hK hk hD hx hy
  unfold hInstChild instChild
  cases hres : resolve env f with
  | none => exact Sim.error (Retains.refl _)
  | some g => exact hr g hres K h x v y key hK0 hK hk hD hx hy

theorem depicts_atoms {A : Cells} {α : Type} (g : α → Val) (hg : ∀ x, (g x).isAtom = true) : ∀ l : List α,
    DepictsL A (l.map fun x => .atom (g x)) (l.map g)
  | [] => .nil
  | x :: l => .cons (.atom (hg x)) (depicts_atoms g hg l)

theorem get_run {h : Heap} {P : Nat → Prop} {a : Nat} {c : Cell} {β : Type} {k : Option Cell → HM β} (hc : part h P a = some c) :
    (HM.get a >>= k).run h = (k (some c)).run h := by
  rw [hm_ok (m := HM.get a) (x := h[a]?) (h' := h) rfl, (part_some.1 hc).2]

theorem hIterate_run {h : Heap} {x : HVal} {v : Val} (hx : Depicts (part h K) x v) (hv : RealKeys v) :
    (∃ l vs, (hIterate x).run h = (.ok l, h) ∧ iterate v = .ok vs ∧ DepictsL (part h K) l vs ∧ ∀ v ∈ vs, RealKeys v) ∨
    ∃ e, (hIterate x).run h = (.error e, h) ∧ iterate v = .error e := by
  cases hx with
  | list hc hl => exact .inl ⟨_, _, by unfold hIterate; rw [get_run hc]; rfl, rfl, hl, RealKeys.of_list hv⟩
  | tuple hc hl => exact .inl ⟨_, _, by unfold hIterate; rw [get_run hc]; rfl, rfl, hl, RealKeys.of_tuple hv⟩
  | dict hc hd =>
    refine .inl ⟨_, _, by unfold hIterate; rw [get_run hc]; rfl, rfl, hd.keys, ?_⟩
    intro w hw
    obtain ⟨e, he, rfl⟩ := List.mem_map.1 hw
    exact (RealKeys.of_dict hv).2.1 e he
  | atom ha =>
    cases v <;> first
      | exact .inr ⟨_, rfl, rfl⟩
      | (cases ha; done)
      | (refine .inl ⟨_, _, rfl, rfl, depicts_atoms _ (fun _ => rfl) _, fun w hw => ?_⟩
         obtain ⟨e, he, rfl⟩ := List.mem_map.1 hw
         exact .atom rfl)

theorem fetch_error {h0 : Heap} {D : Val → Prop} {e : Exn} : Fetches K h0 D (raise e) (.error e) := fun _ hk => Sim.error hk

theorem get_run_later {h h' : Heap} (hk : Retains h h') {P : Nat → Prop} {a : Nat} {c : Cell} {β : Type} {k : Option Cell → HM β}
    (hc : part h P a = some c) : (HM.get a >>= k).run h' = (k (some c)).run h' := by
  have := (part_some.1 hc).2
  rw [hm_ok (m := HM.get a) (x := h'[a]?) (h' := h') rfl, hk.2 a (getElem?_lt this), this]

theorem fetch_index {h0 : Heap} {x : HVal} {v : Val} (hx : Depicts (part h0 K) x v) (hv : RealKeys v) (i : Nat) :
    Fetches K h0 RealKeys (hIndexAt x i) (indexAt v i) := by
  intro h hk
  cases hx with
  | list hc hl =>
    unfold hIndexAt
    rw [get_run_later hk hc]
    have := fetch_item hl (RealKeys.of_list hv) i h hk
    unfold vItemAt at this
    exact this
  | tuple hc hl =>
    unfold hIndexAt
    rw [get_run_later hk hc]
    have := fetch_item hl (RealKeys.of_tuple hv) i h hk
    unfold vItemAt at this
    exact this
  | dict hc hd =>
    rename_i d vs
    unfold hIndexAt
    rw [get_run_later hk hc]
    have := hdictGet_reads (h := h) (P := K) (Q := K) (part_keeps hk fun _ h => h) (k := .atom (.int i)) (vk := .int i) (.atom rfl) hd
    unfold indexAt
    dsimp only
    cases h1 : hdictGet h d (.atom (.int i)) <;> cases h2 : dictGet vs (.int i) <;> rw [h1, h2] at this
    · exact Sim.error hk
    · exact this.elim
    · exact this.elim
    · exact Sim.ok hk ⟨rfl, dictGet_keys hv h2, this⟩
  | atom ha =>
    cases v <;> first
      | exact Sim.error hk
      | (cases ha; done)
      | (rename_i s
         have := fetch_item (h0 := h0) (K := K) (D := RealKeys) (depicts_atoms (A := part h0 K) (fun ch => Val.str [ch]) (fun _ => rfl) s)
           (fun w hw => by obtain ⟨e, he, rfl⟩ := List.mem_map.1 hw; exact .atom rfl) i h hk
         have h2 : indexAt (.str s) i = vItemAt (s.map fun ch => Val.str [ch]) i := by
           unfold indexAt vItemAt
           dsimp only
           rw [List.getElem?_map]
           cases s[i]? <;> rfl
         rw [h2]
         exact this)
      | (rename_i s
         have := fetch_item (h0 := h0) (K := K) (D := RealKeys)
           (depicts_atoms (A := part h0 K) (fun ch : Fin 256 => Val.int ch.val) (fun _ => rfl) s)
           (fun w hw => by obtain ⟨e, he, rfl⟩ := List.mem_map.1 hw; exact .atom rfl) i h hk
         have h2 : indexAt (.bytes s) i = vItemAt (s.map fun ch => Val.int ch.val) i := by
           unfold indexAt vItemAt
           dsimp only
           rw [List.getElem?_map]
           cases s[i]? <;> rfl
         rw [h2]
         exact this)

/-- The entries of a structure, instantiated. -/
theorem instMembers_good {hrec : HInst} {rec : Inst} {defn : List (Str × Field)}
    (hs : ∀ f, IServes K0 hB (hInstChild env hrec f) (instChild env rec f)) {h : Heap} (hK0 : ∀ i, K0 i → K i)
    (hK : ∀ i, K i → i < h.length) (hk : Retains hB h) {d : List (HVal × HVal)} {vs : List (Val × Val)} (hv : RealKeys (.dict vs))
    (hd : DepictsD (part h K) d vs) :
    Agrees K h ((hNewDict fun a => hPutAll (hInstMember env hrec defn) a d).run h) ((instMembers env rec defn vs).map .dict) := by
  rw [instMembers_eq]
  refine entries_good (D := RealKeys) hK ?_ hd (RealKeys.of_dict hv).2.2 (RealKeys.of_dict hv).1
  intro k vk _ hkey h' x v hk' hv' hx'
  have hkey' := hkey.mono (part_keeps hk' fun _ h => h)
  unfold hInstMember
  rw [bind_read hkey']
  cases hfa : fieldAt defn vk with
  | error e => exact Sim.error (Retains.refl _)
  | ok f =>
    rw [bind_lift]
    exact agreesO_some (hs f K h' x v (some k) (some vk) hK0 (fun i hi => Nat.lt_of_lt_of_le (hK i hi) hk'.1) (hk.trans hk') hv' hx'
      (.some hkey'))

theorem hInstBody_good {hrec : HInst} {rec : Inst} (hr : ∀ g, IServes K0 hB (hrec g) (rec g)) (f : Field) :
    Serves K0 hB RealKeys (hInstBody env hrec f) (instBody env rec f) := by
  intro K h x v hK0 hK hk hv hx
  have hc : ∀ f, IServes K0 hB (hInstChild env hrec f) (instChild env rec f) := fun f => hInstChild_good fun g _ => hr g
  cases f with
  | leaf c k => exact Sim.ok (Retains.refl _) (hx.mono (part_keeps (Retains.refl _) fun _ h => .inl h))
  | undef s => exact Sim.error (Retains.refl _)
  | union c fs => exact Sim.error (Retains.refl _)
  | sequence c item mn mx u =>
    unfold hInstBody instBody
    dsimp only
    rcases hIterate_run hx hv with ⟨l, vs, hrun, hval, hl, hD⟩ | ⟨e, hrun, hval⟩
    · rw [hm_ok hrun, hval]
      show Agrees K h _ ((instItems env rec item vs).map .list)
      rw [instItems_eq]
      refine items_good (D := RealKeys) hK0 hK hk (q := fun v => (instChild env rec item v none).map some) ?_ hl hD
      intro K h x v hK0 hK hk hv hx
      exact agreesO_some (hc item K h x v none none hK0 hK hk hv hx .none)
    · rw [hm_error hrun, hval]
      exact Sim.error (Retains.refl _)
  | tuple c fs =>
    unfold hInstBody instBody
    dsimp only
    rw [instSlots_eq]
    refine slots_good (D := RealKeys) hK0 hK hk (fetch_index hx hv) fun f hm => ?_
    intro K h x v hK0 hK hk hv hx
    exact agreesO_some (hc f K h x v none none hK0 hK hk hv hx .none)
  | map c key value req =>
    unfold hInstBody instBody
    dsimp only
    rcases dictItems_run hx with ⟨vs, d, a, rfl, rfl, hcell, hrun, hd⟩ | ⟨hn, hrun⟩
    · rw [hm_ok hrun]
      dsimp only
      rw [instEntries_eq]
      refine entries_good (D := RealKeys) hK ?_ hd (RealKeys.of_dict hv).2.2 (RealKeys.of_dict hv).1
      intro k vk _ hkey h' x v hk' hv' hx'
      exact agreesO_some (hc value K h' x v (some k) (some vk) hK0 (fun i hi => Nat.lt_of_lt_of_le (hK i hi) hk'.1) (hk.trans hk') hv' hx'
        (.some (hkey.mono (part_keeps hk' fun _ h => h))))
    · rw [hm_ok hrun]
      cases v <;> first | exact absurd rfl (hn _) | exact Sim.error (Retains.refl _)
  | «structure» c defn s ko =>
    unfold hInstBody instBody
    dsimp only
    rcases dictItems_run hx with ⟨vs, d, a, rfl, rfl, hcell, hrun, hd⟩ | ⟨hn, hrun⟩
    · rw [hm_ok hrun]
      exact instMembers_good hc hK0 hK hk hv hd
    · rw [hm_ok hrun]
      cases v <;> first | exact absurd rfl (hn _) | exact Sim.error (Retains.refl _)
  | poly c disc variants s ko =>
    unfold hInstBody instBody
    dsimp only
    rcases dictItems_run hx with ⟨vs, d, a, rfl, rfl, hcell, hrun, hd⟩ | ⟨hn, hrun⟩
    · rw [hm_ok hrun]
      dsimp only
      have hget := hget_sim hd (.str (disc.name.getD [])) rfl
      cases h1 : hdictGet h d (.atom (.str (disc.name.getD []))) <;> cases h2 : dictGet vs (.str (disc.name.getD [])) <;> rw [h1, h2] at hget
      · rw [hm_error (e := .py .keyError) (h' := h) (by dsimp only; rw [h1])]
        exact Sim.error (Retains.refl _)
      · nomatch hget
      · nomatch hget
      · cases hget with
        | some hget =>
          rename_i y id
          rw [hm_ok (x := y) (h' := h) (by dsimp only; rw [h1])]
          dsimp only
          rw [bind_read hget]
          split
          · cases hva : variantAt variants id with
            | error e => exact Sim.error (Retains.refl _)
            | ok defn =>
              rw [bind_lift]
              exact instMembers_good hc hK0 hK hk hv hd
          · rw [instIdentities_eq]
            refine entries_good (D := RealKeys) hK ?_ hd (RealKeys.of_dict hv).2.2 (RealKeys.of_dict hv).1
            intro k vk _ hkey h' x v hk' hv' hx'
            unfold hInstIdentity vInstIdentity
            rw [bind_read (hkey.mono (part_keeps hk' fun _ h => h))]
            cases variantGet variants vk <;> exact Sim.error (Retains.refl _)
    · rw [hm_ok hrun]
      cases v <;> first | exact absurd rfl (hn _) | exact Sim.error (Retains.refl _)

theorem hInstOwn_good (hO : Describes o O K0 hB) (f : Field) {h : Heap} {x : HVal} {v : Val} {yo : Option HVal} {key : Option Val}
    (hK0 : ∀ i, K0 i → K i) (hK : ∀ i, K i → i < h.length) (hk : Retains hB h) (hx : Depicts (part h K) x v)
    (hy : ODepicts (part h K) yo key) : Agrees K h ((hInstOwn O f x yo).run h) (instOwn o f v key) := by
  have hx' : Depicts (part h (since K h.length)) x v := hx.mono (part_keeps (Retains.refl _) fun _ h => .inl h)
  unfold hInstOwn instOwn
  cases f.common?.bind (·.instor) with
  | none => exact Sim.ok (Retains.refl _) hx'
  | some k =>
    have hkey : Depicts (part h K) (yo.getD (.atom .none)) (key.getD .none) := by
      cases hy with
      | none => exact .atom rfl
      | some hy => exact hy
    have hg := computes_iff.1 (hO.inst k f K h x v _ _ hK0 hK hk hx hkey)
    cases hx with
    | atom ha =>
      cases v <;> first
        | exact Sim.ok (Retains.refl _) hx'
        | exact hg
    | list _ _ => exact hg
    | tuple _ _ => exact hg
    | dict _ _ => exact hg

theorem hInstantiate_serves (hO : Describes o O K0 hB) : ∀ n f, IServes K0 hB (hInstantiate env O n f) (instantiate env o n f)
  | 0, _ => fun _ _ _ _ _ _ _ _ _ _ _ _ => Sim.error (Retains.refl _)
  | n + 1, f => by
    intro K h x v y key hK0 hK hk hv hx hy
    have hbody : Agrees K h ((hInstBody env (hInstantiate env O n) f x >>= fun w => hInstOwn O f w y).run h)
        (instBody env (instantiate env o n) f v >>= fun w => instOwn o f w key) := by
      refine Sim.bind (hInstBody_good (fun g => hInstantiate_serves hO n g) f K h x v hK0 hK hk hv hx) ?_
      intro h1 z w hk1 hz
      refine agrees_then hk1 (hInstOwn_good hO f (fun i hi => ⟨.inl (hK0 i hi), Nat.lt_of_lt_of_le (hK i (hK0 i hi)) hk1.1⟩)
        (fun i hi => hi.2) (hk.trans hk1) (hz.mono part_bounded) ?_)
      cases hy with
      | none => exact .none
      | some hy => exact .some (hy.mono (part_keeps hk1 fun i hi => ⟨.inl hi, Nat.lt_of_lt_of_le (hK i hi) hk1.1⟩))
    cases f with
    | undef s => exact Sim.error (Retains.refl _)
    | union c fs => cases hy <;> exact Sim.error (Retains.refl _)
    | _ => exact unlessNone_good hx hbody

end HT
end Scheme
