import Verif.Lemmas.HeapTraverse
import Verif.Lemmas.DictGet

/-! Extraction on the heap corresponds to extraction of values. -/

namespace Scheme

open HM

namespace HT

variable {env : Env} {o : Outer} {O : HOuter} {K K0 : Nat → Prop} {hB : Heap} {strict : Bool} {params : Params}

/-! ### The loops of the value model -/

theorem notExcluded_eq (r : Except Exn Val) : notExcluded r = vSkip isExcluded r := by
  cases r with
  | ok v => rfl
  | error e => cases e <;> rfl

theorem extractItems_eq (rec : Ext) (item : Field) : ∀ vs, extractItems env rec item vs =
    vAll (fun v => vSkip isExcluded (extractChild env rec item v)) vs
  | [] => rfl
  | v :: vs => by
    unfold extractItems vAll
    rw [notExcluded_eq, extractItems_eq rec item vs]
    refine bind_congr fun x => bind_congr fun r => ?_
    cases x <;> rfl

theorem extractEntries_eq (rec : Ext) (value : Field) : ∀ vs, extractEntries env rec value vs =
    vEntries (fun _ v => vSkip isExcluded (extractChild env rec value v)) vs
  | [] => rfl
  | (k, v) :: vs => by
    unfold extractEntries vEntries
    rw [notExcluded_eq, extractEntries_eq rec value vs]
    refine bind_congr fun x => bind_congr fun r => ?_
    cases x <;> rfl

/-- `subject[i]` -/
def vItemAt (l : List Val) (i : Nat) : Except Exn Val :=
  match l[i]? with
  | some v => .ok v
  | none => .error (.py .indexError)

theorem extractSlots_eq (rec : Ext) (l : List Val) : ∀ fs (i : Nat), extractSlots env rec fs (l.drop i) =
    vSlots (vItemAt l) (fun f v => vSkip isExcluded (extractChild env rec f v)) i fs
  | [], i => by unfold extractSlots vSlots; rfl
  | f :: fs, i => by
    unfold vSlots
    by_cases hi : i < l.length
    · rw [List.drop_eq_getElem_cons hi]
      unfold extractSlots
      rw [notExcluded_eq, extractSlots_eq rec l fs (i + 1)]
      have : vItemAt l i = .ok l[i] := by unfold vItemAt; rw [List.getElem?_eq_getElem hi]
      rw [this]
      show _ = (do
        let x ← vSkip isExcluded (extractChild env rec f l[i])
        let r' ← vSlots (vItemAt l) (fun f v => vSkip isExcluded (extractChild env rec f v)) (i + 1) fs
        return x.toList ++ r' : Except Exn (List Val))
      refine bind_congr fun x => bind_congr fun r => ?_
      cases x <;> rfl
    · rw [List.drop_eq_nil_of_le (by omega)]
      unfold extractSlots vItemAt
      rw [List.getElem?_eq_none (by omega)]
      rfl

theorem extractMembers_eq (rec : Ext) (subject : Val) : ∀ defn, extractMembers env o rec subject defn =
    vMembers (fun name => memberValue o subject (.str name)) (fun f v => vSkip isExcluded (extractChild env rec f v)) defn
  | [] => rfl
  | (name, f) :: defn => by
    unfold extractMembers vMembers
    rw [extractMembers_eq rec subject defn]
    refine bind_congr fun v => ?_
    cases v with
    | none => rfl
    | some v =>
      dsimp only
      rw [notExcluded_eq]
      refine bind_congr fun x => bind_congr fun r => ?_
      cases x <;> rfl

/-! ### Keys of values -/

theorem RealKeys.of_list {l : List Val} (h : RealKeys (.list l)) : ∀ v ∈ l, RealKeys v := by
  cases h with
  | list h => exact h
  | atom h => cases h

theorem RealKeys.of_tuple {l : List Val} (h : RealKeys (.tuple l)) : ∀ v ∈ l, RealKeys v := by
  cases h with
  | tuple h => exact h
  | atom h => cases h

theorem RealKeys.of_dict {d : List (Val × Val)} (h : RealKeys (.dict d)) :
    DistinctKeys d ∧ (∀ e ∈ d, RealKeys e.1) ∧ ∀ e ∈ d, RealKeys e.2 := by
  cases h with
  | dict h h1 h2 => exact ⟨h, h1, h2⟩
  | atom h => cases h

/-! ### Pieces -/

theorem agrees_then {h h1 : Heap} {out : Except Exn HVal × Heap} {r : Except Exn Val} (hk : Retains h h1)
    (hg : Agrees (fun i => since K h.length i ∧ i < h1.length) h1 out r) : Agrees K h out r := by
  refine (Sim.base hk hg).mono ?_
  rintro h' y w _ ⟨_, hy⟩
  refine hy.mono (part_keeps (Retains.refl _) fun i hi => ?_)
  rcases hi with ⟨hi, _⟩ | hi
  · exact hi
  · exact .inr (Nat.le_trans hk.1 hi)

/-- Sequencing: the result of the first part is the subject of the second. -/
theorem agrees_bind {h : Heap} {p : HM HVal} {k : HVal → HM HVal} {r : Except Exn Val} {q : Val → Except Exn Val} {D : Val → Prop}
    (hK0 : ∀ i, K0 i → K i) (hK : ∀ i, K i → i < h.length) (hB0 : Retains hB h) (hp : Agrees K h (p.run h) r)
    (hD : ∀ w, r = .ok w → D w) (hs : Serves K0 hB D k q) : Agrees K h ((p >>= k).run h) (r >>= q) := by
  have hg : Sim h (p.run h) r (fun h' y w => D w ∧ Depicts (part h' (since K h.length)) y w) := by
    refine ⟨hp.1, ?_⟩
    have := hp.2
    cases h1 : (p.run h).1 <;> cases h2 : r <;> rw [h1, h2] at this
    · exact this
    · exact this.elim
    · exact this.elim
    · exact ⟨hD _ h2, this⟩
  refine Sim.bind hg ?_
  rintro h1 y w hk ⟨hw, hy⟩
  exact agrees_then hk (hs _ h1 y w (fun i hi => ⟨.inl (hK0 i hi), Nat.lt_of_lt_of_le (hK i (hK0 i hi)) hk.1⟩) (fun i hi => hi.2)
    (hB0.trans hk) hw (hy.mono part_bounded))

theorem hChild_serves {hrec : HExt} {rec : Ext} {f : Field} (hr : ∀ g, resolve env f = some g → Serves K0 hB RealKeys (hrec g) (rec g)) :
    Serves K0 hB RealKeys (hChild env hrec f) (extractChild env rec f) := by
  intro K h x v hK0 hK hk hD hx
  unfold hChild extractChild
  cases hres : resolve env f with
  | none => exact Sim.error (Retains.refl _)
  | some g => exact hr g hres K h x v hK0 hK hk hD hx

theorem dictGet_keys {d : List (Val × Val)} {k v : Val} (h : RealKeys (.dict d)) (hg : dictGet d k = some v) : RealKeys v := by
  obtain ⟨k', hm, _⟩ := dictGet_mem hg
  exact (RealKeys.of_dict h).2.2 _ hm

/-- `d[k]` -/
theorem hget_sim {h : Heap} {d : List (HVal × HVal)} {vs : List (Val × Val)} (hd : DepictsD (part h K) d vs) (key : Val) (ha : key.isAtom = true) :
    ODepicts (part h K) (hdictGet h d (.atom key)) (dictGet vs key) := by
  have := hdictGet_reads (h := h) (P := K) (Q := K) (fun _ _ h => h) (k := .atom key) (vk := key) (.atom ha) hd
  cases h1 : hdictGet h d (.atom key) <;> cases h2 : dictGet vs key <;> rw [h1, h2] at this
  · exact .none
  · exact this.elim
  · exact this.elim
  · exact .some this

theorem hGetMember_sim (hO : Describes o O K0 hB) {name : Val} (hn : name.isAtom = true) :
    Serves K0 hB RealKeys (fun x => hGetMember O x (.atom name)) (fun v => (getMember o v name).mapError .py) := by
  intro K h x v hK0 hK hk hD hx
  show Agrees K h ((hGetMember O x (.atom name)).run h) _
  unfold hGetMember
  rcases dictItems_run hx with ⟨vs, d, a, rfl, rfl, hc, hrun, hd⟩ | ⟨hn', hrun⟩
  · rw [hm_ok hrun]
    dsimp only [getMember]
    have := hget_sim hd name hn
    cases h1 : hdictGet h d (.atom name) <;> cases h2 : dictGet vs name <;> rw [h1, h2] at this
    · exact Sim.error (Retains.refl _)
    · nomatch this
    · nomatch this
    · cases this with
      | some this => exact Sim.ok (Retains.refl _) (this.mono (part_keeps (Retains.refl _) fun _ h => .inl h))
  · rw [hm_ok hrun]
    have hgm : getMember o v name = o.getattr v name := by
      cases v <;> first | rfl | exact absurd rfl (hn' _)
    dsimp only
    rw [hgm]
    exact computes_iff.1 (hO.getattr name K h x v hK0 hK hk hD hx)

theorem getMember_keys (hO : Describes o O K0 hB) {v name w : Val} (hv : RealKeys v) (h : getMember o v name = .ok w) : RealKeys w := by
  unfold getMember at h
  split at h
  · split at h
    · cases h; rename_i hg; exact dictGet_keys hv hg
    · cases h
  · exact hO.getattrKeys _ _ _ h

theorem hMemberValue_sim (hO : Describes o O K0 hB) {name : Val} (hn : name.isAtom = true) {h : Heap} {x : HVal} {v : Val}
    (hK0 : ∀ i, K0 i → K i) (hK : ∀ i, K i → i < h.length) (hk : Retains hB h) (hv : RealKeys v) (hx : Depicts (part h K) x v) :
    Sim h ((hMemberValue O x (.atom name)).run h) (memberValue o v name)
      (fun h' y w => ODepicts (part h' (since K h.length)) y w ∧ ∀ u, w = some u → RealKeys u) := by
  have hg := hGetMember_sim hO hn K h x v hK0 hK hk hv hx
  have hkeys : ∀ w, getMember o v name = .ok w → RealKeys w := fun w hw => getMember_keys hO hv hw
  unfold hMemberValue memberValue
  dsimp only at hg ⊢
  generalize (hGetMember O x (.atom name)).run h = out at hg
  generalize getMember o v name = r at hg hkeys
  obtain ⟨y, h'⟩ := out
  obtain ⟨hk', hq⟩ := hg
  cases r with
  | error e =>
    cases y with
    | ok y => exact hq.elim
    | error e' =>
      have : e' = .py e := hq
      subst this
      cases e <;> first
        | exact Sim.ok hk' ⟨.none, fun u hu => nomatch hu⟩
        | exact Sim.error hk'
  | ok w =>
    cases y with
    | error e => exact hq.elim
    | ok y =>
      have hq' : Depicts (part h' (since K h.length)) y w := hq
      have hw := hkeys w rfl
      cases hq' with
      | atom ha =>
        cases w <;> first
          | exact Sim.ok hk' ⟨.none, fun u hu => nomatch hu⟩
          | exact Sim.ok hk' ⟨.some hq, fun u hu => by cases hu; exact hw⟩
      | list _ _ => exact Sim.ok hk' ⟨.some hq, fun u hu => by cases hu; exact hw⟩
      | tuple _ _ => exact Sim.ok hk' ⟨.some hq, fun u hu => by cases hu; exact hw⟩
      | dict _ _ => exact Sim.ok hk' ⟨.some hq, fun u hu => by cases hu; exact hw⟩

theorem hExtractIdentities_sim (hO : Describes o O K0 hB) {h0 : Heap} {x : HVal} {v : Val} (hK0 : ∀ i, K0 i → K i)
    (hK : ∀ i, K i → i < h0.length) (hB0 : Retains hB h0) (hv : RealKeys v) (hx : Depicts (part h0 K) x v) :
    ∀ {variants : List (Val × List (Str × Field))}, (∀ e ∈ variants, e.1.isAtom = true) → ∀ {h : Heap}, Retains h0 h →
    Sim h0 ((hExtractIdentities O x variants).run h) (extractIdentities o v variants) (fun h' _ _ => Retains h h')
  | [], _, h, hk => by unfold hExtractIdentities extractIdentities; exact Sim.ok hk (Retains.refl _)
  | (i, _) :: r, ha, h, hk => by
    unfold hExtractIdentities extractIdentities
    have hm := hMemberValue_sim hO (ha _ List.mem_cons_self) (K := K) hK0 (fun i hi => Nat.lt_of_lt_of_le (hK i hi) hk.1) (hB0.trans hk) hv
      (hx.mono (part_keeps hk fun _ h => h))
    refine Sim.bind (Sim.base hk hm) ?_
    rintro h1 y w hk1 ⟨hk2, hy, _⟩
    cases hy with
    | none =>
      dsimp only
      exact (hExtractIdentities_sim hO hK0 hK hB0 hv hx (fun e he => ha e (List.mem_cons_of_mem _ he)) hk1).mono
        fun _ _ _ _ h => hk2.trans h
    | some _ => exact Sim.error hk1

theorem fetch_item {h0 : Heap} {l : List HVal} {vs : List Val} {D : Val → Prop} (hl : DepictsL (part h0 K) l vs) (hD : ∀ v ∈ vs, D v) (i : Nat) :
    Fetches K h0 D (hItemAt l i) (vItemAt vs i) := by
  intro h hk
  unfold hItemAt vItemAt
  have key : ∀ {l : List HVal} {vs : List Val}, DepictsL (part h0 K) l vs → (∀ v ∈ vs, D v) → ∀ i : Nat,
      (l[i]? = none ∧ vs[i]? = none) ∨ ∃ x v, l[i]? = some x ∧ vs[i]? = some v ∧ D v ∧ Depicts (part h0 K) x v := by
    intro l
    induction l with
    | nil => intro vs hl _ i; cases hl; left; simp
    | cons x l ih =>
      intro vs hl hD i
      cases hl with
      | cons hx hl =>
        cases i with
        | zero => right; exact ⟨_, _, rfl, rfl, hD _ List.mem_cons_self, hx⟩
        | succ i => simpa using ih hl (fun v hv => hD v (List.mem_cons_of_mem _ hv)) i
  rcases key hl hD i with ⟨h1, h2⟩ | ⟨x, v, h1, h2, hd, hx⟩
  · rw [h1, h2]; exact Sim.error hk
  · rw [h1, h2]; exact Sim.ok hk ⟨rfl, hd, hx⟩

/-- `True` unless a dict is needed and there is none. -/
theorem hNeedsDict_run {h : Heap} {x : HVal} {v : Val} (hx : Depicts (part h K) x v) (strict : Bool) :
    (hNeedsDict strict x).run h = (match v with
      | .dict _ => (.ok (), h)
      | _ => if strict then (.error .cannotExtract, h) else (.ok (), h)) := by
  unfold hNeedsDict
  rcases dictItems_run hx with ⟨vs, d, a, rfl, rfl, hc, hrun, hd⟩ | ⟨hn', hrun⟩
  · rw [hm_ok hrun]; rfl
  · rw [hm_ok hrun]
    cases v <;> first | exact absurd rfl (hn' _) | (cases strict <;> rfl)

theorem hUnion_serves {hrec : HExt} {rec : Ext} {x : HVal} {v : Val} {h0 : Heap} (hK0 : ∀ i, K0 i → K i)
    (hK : ∀ i, K i → i < h0.length) (hB0 : Retains hB h0) (hv : RealKeys v) (hx : Depicts (part h0 K) x v) :
    ∀ {fs : List Field}, (∀ f ∈ fs, Serves K0 hB RealKeys (hChild env hrec f) (extractChild env rec f)) → ∀ {h : Heap}, Retains h0 h →
    Sim h0 ((hExtractBody.hExtractUnion env hrec x fs).run h) (extractUnion env rec v fs)
      (fun h' y w => Depicts (part h' (since K h0.length)) y w)
  | [], _, h, hk => Sim.error hk
  | f :: fs, hs, h, hk => by
    have hg := hs f List.mem_cons_self K h x v hK0 (fun i hi => Nat.lt_of_lt_of_le (hK i hi) hk.1) (hB0.trans hk) hv
      (hx.mono (part_keeps hk fun _ h => h))
    have hg' := Agrees.at hk hk.1 hg
    unfold hExtractBody.hExtractUnion extractUnion
    dsimp only
    generalize (hChild env hrec f x).run h = out at hg'
    generalize extractChild env rec f v = r at hg'
    obtain ⟨y, h1⟩ := out
    obtain ⟨hk1, hq⟩ := hg'
    cases y with
    | ok y => cases r with
      | ok w => exact Sim.ok hk1 hq.2
      | error e => exact hq.elim
    | error e => cases r with
      | ok w => exact hq.elim
      | error e' =>
        have : e = e' := hq
        subst this
        cases e <;> first
          | exact Sim.error hk1
          | exact hUnion_serves hK0 hK hB0 hv hx (fun f hm => hs f (List.mem_cons_of_mem _ hm)) hk1

theorem unlessNone_good {h : Heap} {x : HVal} {v : Val} {m : HM HVal} {r : Except Exn Val} (hx : Depicts (part h K) x v)
    (hm : Agrees K h (m.run h) r) : Agrees K h ((hUnlessNone x m).run h) (if v.isNone then .ok .none else r) := by
  cases hx with
  | atom ha =>
    cases v <;> first
      | exact Sim.ok (Retains.refl _) (.atom rfl)
      | exact hm
  | list _ _ => exact hm
  | tuple _ _ => exact hm
  | dict _ _ => exact hm

/-- The dict of a plain structure, or of the chosen variant. -/
theorem extractMembers_good (hO : Describes o O K0 hB) {hrec : HExt} {rec : Ext} {h : Heap} {x : HVal} {v : Val} (hK0 : ∀ i, K0 i → K i)
    (hK : ∀ i, K i → i < h.length) (hk : Retains hB h) (hv : RealKeys v) (hx : Depicts (part h K) x v) {defn : List (Str × Field)}
    (hnd : (defn.map (·.1)).Nodup) (hs : ∀ e ∈ defn, Serves K0 hB RealKeys (hChild env hrec e.2) (extractChild env rec e.2)) :
    Agrees K h ((hNewDict fun a => hPutMembers (fun name => hMemberValue O x (.atom (.str name)))
        (fun f y => hSkip isExcluded (hChild env hrec f y)) a defn).run h)
      ((extractMembers env o rec v defn).map .dict) := by
  rw [extractMembers_eq]
  exact members_good hK0 hK hk (fun name h' hk' => hMemberValue_sim hO rfl hK0 (fun i hi => Nat.lt_of_lt_of_le (hK i hi) hk'.1)
      (hk.trans hk') hv (hx.mono (part_keeps hk' fun _ h => h)))
    (fun e he => serves_skip (hs e he) isExcluded) hnd

/-- `subject` is a list or a tuple. -/
theorem seq_keys {v : Val} {vs : List Val} (hv : RealKeys v) (hvs : v = .list vs ∨ v = .tuple vs) : ∀ v ∈ vs, RealKeys v := by
  rcases hvs with rfl | rfl
  · exact RealKeys.of_list hv
  · exact RealKeys.of_tuple hv

theorem hExtractBody_serves (hO : Describes o O K0 hB) {hrec : HExt} {rec : Ext}
    (hr : ∀ g, Everywhere env Declarable g → Serves K0 hB RealKeys (hrec g) (rec g)) {f : Field} (hf : Everywhere env Declarable f) :
    Serves K0 hB RealKeys (hExtractBody env O strict hrec f) (extractBody env o strict rec f) := by
  intro K h x v hK0 hK hk hv hx
  cases f with
  | leaf c k => exact Sim.ok (Retains.refl _) (hx.mono (part_keeps (Retains.refl _) fun _ h => .inl h))
  | undef s => exact Sim.error (Retains.refl _)
  | sequence c item mn mx u =>
    have hs : Serves K0 hB RealKeys (hChild env hrec item) (extractChild env rec item) :=
      hChild_serves fun g hg => hr g (hf.child (.item hg))
    unfold hExtractBody extractBody
    rcases tupleItems_run hx with ⟨vs, l, hvs, hrun, hl⟩ | ⟨hn1, hn2, hrun⟩
    · dsimp only
      rw [hm_ok hrun]
      have hval : extractSequence env rec item v = (vAll (fun v => vSkip isExcluded (extractChild env rec item v)) vs).map .list := by
        rw [← extractItems_eq]
        rcases hvs with rfl | rfl <;> rfl
      rw [hval]
      exact items_good hK0 hK hk (serves_skip hs isExcluded) hl (seq_keys hv hvs)
    · dsimp only
      rw [hm_ok hrun]
      have hval : extractSequence env rec item v = .error .cannotExtract := by
        cases v <;> first | rfl | exact absurd rfl (hn1 _) | exact absurd rfl (hn2 _)
      rw [hval]
      exact Sim.error (Retains.refl _)
  | tuple c fs =>
    have hs : ∀ f ∈ fs, Serves K0 hB RealKeys (hChild env hrec f) (extractChild env rec f) := fun f hm =>
      hChild_serves fun g hg => hr g (hf.child (.tuple hm hg))
    unfold hExtractBody extractBody
    rcases tupleItems_run hx with ⟨vs, l, hvs, hrun, hl⟩ | ⟨hn1, hn2, hrun⟩
    · dsimp only
      rw [hm_ok hrun]
      have hval : extractTuple env rec fs v = (vSlots (vItemAt vs) (fun f v => vSkip isExcluded (extractChild env rec f v)) 0 fs).map .tuple := by
        rw [← extractSlots_eq, List.drop_zero]
        rcases hvs with rfl | rfl <;> rfl
      rw [hval]
      exact slots_good (D := RealKeys) hK0 hK hk (fetch_item hl (seq_keys hv hvs)) fun f hm => serves_skip (hs f hm) isExcluded
    · dsimp only
      rw [hm_ok hrun]
      have hval : extractTuple env rec fs v = .error .cannotExtract := by
        cases v <;> first | rfl | exact absurd rfl (hn1 _) | exact absurd rfl (hn2 _)
      rw [hval]
      exact Sim.error (Retains.refl _)
  | map c key value req =>
    have hs : Serves K0 hB RealKeys (hChild env hrec value) (extractChild env rec value) :=
      hChild_serves fun g hg => hr g (hf.child (.value hg))
    unfold hExtractBody extractBody
    rcases dictItems_run hx with ⟨vs, d, a, rfl, rfl, hc, hrun, hd⟩ | ⟨hn, hrun⟩
    · dsimp only
      rw [hm_ok hrun]
      have hval : extractMap env rec value (.dict vs) =
          (vEntries (fun _ v => vSkip isExcluded (extractChild env rec value v)) vs).map .dict := by
        rw [← extractEntries_eq]; rfl
      rw [hval]
      refine entries_good hK ?_ hd (RealKeys.of_dict hv).2.2 (RealKeys.of_dict hv).1
      intro k vk _ _ h' x v hk' hv' hx'
      exact serves_skip hs isExcluded K h' x v hK0 (fun i hi => Nat.lt_of_lt_of_le (hK i hi) hk'.1) (hk.trans hk') hv' hx'
    · dsimp only
      rw [hm_ok hrun]
      have hval : extractMap env rec value v = .error .cannotExtract := by
        cases v <;> first | rfl | exact absurd rfl (hn _)
      rw [hval]
      exact Sim.error (Retains.refl _)
  | union c fs =>
    unfold hExtractBody extractBody
    exact hUnion_serves hK0 hK hk hv hx (fun f hm => hChild_serves fun g hg => hr g (hf.child (.union hm hg))) (Retains.refl _)
  | «structure» c defn s ko =>
    have hs : ∀ e ∈ defn, Serves K0 hB RealKeys (hChild env hrec e.2) (extractChild env rec e.2) := fun e hm =>
      hChild_serves fun g hg => hr g (hf.child (.member (n := e.1) hm hg))
    have hg := extractMembers_good hO hK0 hK hk hv hx hf.here.1 hs
    unfold hExtractBody extractBody
    dsimp only
    have hnd := hNeedsDict_run hx strict
    cases v <;> first
      | (rw [hm_ok hnd]; exact hg)
      | (cases strict with
         | true => rw [hm_error hnd]; exact Sim.error (Retains.refl _)
         | false => rw [hm_ok hnd]; exact hg)
  | poly c disc variants s ko =>
    have hpoly : Agrees K h ((hGetMember O x (.atom (.str (disc.name.getD []))) >>= fun y => read y >>= fun id =>
          if id.truthy = true then lift (variantAt variants id) >>= fun defn =>
            hNewDict fun a => hPutMembers (fun name => hMemberValue O x (.atom (.str name)))
              (fun f y => hSkip isExcluded (hChild env hrec f y)) a defn
          else hNewDict fun _ => hExtractIdentities O x variants).run h)
        (match getMember o v (.str (disc.name.getD [])) with
        | .error e => .error (.py e)
        | .ok id =>
          if id.truthy then do
            let defn ← variantAt variants id
            (extractMembers env o rec v defn).map .dict
          else (extractIdentities o v variants).map fun _ => .dict []) := by
      have hval : ∀ (r : Except PyErr Val) (k : Val → Except Exn Val), (match r with
          | .error e => .error (.py e)
          | .ok id => k id) = (r.mapError Exn.py >>= k) := by
        intro r k; cases r <;> rfl
      rw [hval]
      refine Sim.bind (hGetMember_sim hO rfl K h x v hK0 hK hk hv hx) ?_
      intro h1 y id hk1 hy
      rw [bind_read hy]
      split
      · cases hva : variantAt variants id with
        | error e => exact Sim.error hk1
        | ok defn =>
          rw [bind_lift]
          have hmem : ∃ i, (i, defn) ∈ variants := by
            unfold variantAt at hva
            split at hva
            · split at hva
              · cases hva; rename_i hvg; exact variantGet_mem hvg
              · cases hva
            · cases hva
          obtain ⟨i, hi⟩ := hmem
          have hnd : (defn.map (·.1)).Nodup := hf.here.1 _ hi
          have hs : ∀ e ∈ defn, Serves K0 hB RealKeys (hChild env hrec e.2) (extractChild env rec e.2) := fun e hm =>
            hChild_serves fun g hg => hr g (hf.child (.variant (n := e.1) hi hm hg))
          have := extractMembers_good (env := env) (hrec := hrec) (rec := rec) hO hK0 (fun i hi => Nat.lt_of_lt_of_le (hK i hi) hk1.1) (hk.trans hk1) hv
            (hx.mono (part_keeps hk1 fun _ h => h)) hnd hs
          exact (Agrees.at hk1 hk1.1 this).mono fun _ _ _ _ hq => hq.2
      · have hid : ∀ e ∈ variants, e.1.isAtom = true := hf.here.2 _ _ _ _ _ rfl
        have hgood : Agrees K h1 ((hNewDict fun _ => hExtractIdentities O x variants).run h1)
            (((extractIdentities o v variants).map fun _ => ([] : List (Val × Val))).map .dict) := by
          refine hNewDict_sim ?_
          rw [show ((extractIdentities o v variants).map fun _ => ([] : List (Val × Val))) =
            (extractIdentities o v variants >>= fun _ => .ok []) from by cases extractIdentities o v variants <;> rfl]
          have := hExtractIdentities_sim hO (K := K) hK0 (fun i hi => Nat.lt_of_lt_of_le (hK i hi) hk1.1) (hk.trans hk1) hv
            (hx.mono (part_keeps hk1 fun _ h => h)) hid (Retains.snoc h1 (.dict []))
          refine Sim.map_right this ?_
          intro h2 _ _ _ hk2
          exact (dictAt_new h1).later hk2
        have h2 : (((extractIdentities o v variants).map fun _ => ([] : List (Val × Val))).map Val.dict) =
            (extractIdentities o v variants).map fun _ => .dict [] := by cases extractIdentities o v variants <;> rfl
        rw [h2] at hgood
        exact (Agrees.at hk1 hk1.1 hgood).mono fun _ _ _ _ hq => hq.2
    unfold hExtractBody extractBody extractPoly
    dsimp only
    have hnd := hNeedsDict_run hx strict
    cases v <;> first
      | (rw [hm_ok hnd]; exact hpoly)
      | (cases strict with
         | true => rw [hm_error hnd]; exact Sim.error (Retains.refl _)
         | false => rw [hm_ok hnd]; exact hpoly)

theorem hApplyExtractor_good (hO : Describes o O K0 hB) (f : Field) : Serves K0 hB RealKeys (hApplyExtractor O f) (applyExtractor o f) := by
  intro K h x v hK0 hK hk hv hx
  have hx' : Depicts (part h (since K h.length)) x v := hx.mono (part_keeps (Retains.refl _) fun _ h => .inl h)
  have hplain : ∀ (f : Field) (k : Option Nat), Agrees K h ((hExtractor O f k x).run h) (extractor o f k v) := by
    intro f k
    cases k with
    | none => exact Sim.ok (Retains.refl _) hx'
    | some k =>
      have hg := computes_iff.1 (hO.ext k f K h x v hK0 hK hk hv hx)
      unfold hExtractor extractor
      dsimp only
      generalize (O.ext k f x).run h = out at hg
      generalize o.ext k f v = r at hg
      obtain ⟨y, h1⟩ := out
      obtain ⟨hk1, hq⟩ := hg
      cases y <;> cases r
      · exact Sim.error hk1
      · exact hq.elim
      · exact hq.elim
      · exact Sim.ok hk1 hq
  cases f with
  | union c fs =>
    unfold hApplyExtractor applyExtractor unionExtractor
    dsimp only
    cases c.extor with
    | none => exact Sim.ok (Retains.refl _) hx'
    | some k => exact computes_iff.1 (hO.ext k _ K h x v hK0 hK hk hv hx)
  | undef s => exact hplain (.undef s) ((Field.undef s).common?.bind (·.extor))
  | _ => exact hplain _ _

theorem applyExtractor_keys (hO : Describes o O K0 hB) {f : Field} {v w : Val} (hv : RealKeys v) (h : applyExtractor o f v = .ok w) : RealKeys w := by
  have hplain : ∀ (f : Field) (k : Option Nat), extractor o f k v = .ok w → RealKeys w := by
    intro f k h
    unfold extractor at h
    cases k with
    | none => cases h; exact hv
    | some k =>
      dsimp only at h
      split at h
      · cases h; rename_i he; exact hO.extKeys _ _ _ _ he
      · cases h
  cases f with
  | union c fs =>
    unfold applyExtractor unionExtractor at h
    dsimp only at h
    cases hc : c.extor with
    | none => rw [hc] at h; cases h; exact hv
    | some k => rw [hc] at h; exact hO.extKeys _ _ _ _ h
  | undef s => exact hplain (.undef s) ((Field.undef s).common?.bind (·.extor)) h
  | _ => exact hplain _ _ h

theorem hExtract_serves (hO : Describes o O K0 hB) : ∀ n f, Everywhere env Declarable f →
    Serves K0 hB RealKeys (hExtract env o O strict params n f) (extract env o strict params n f)
  | 0, _, _ => fun _ _ _ _ _ _ _ _ _ => Sim.error (Retains.refl _)
  | n + 1, f, hf => by
    intro K h x v hK0 hK hk hv hx
    show Agrees K h ((hExtractStep env o O strict params (hExtract env o O strict params n) f x).run h)
      (extractStep env o strict params (extract env o strict params n) f v)
    have hbody := agrees_bind hK0 hK hk (hApplyExtractor_good hO f K h x v hK0 hK hk hv hx) (fun w hw => applyExtractor_keys hO hv hw)
      (hExtractBody_serves (strict := strict) hO (hrec := hExtract env o O strict params n) (rec := extract env o strict params n)
        (fun g hg => hExtract_serves hO n g hg) hf)
    have hstep : (∀ s, f ≠ .undef s) → Agrees K h ((if excluded o f params then raise .excluded
        else hUnlessNone x do
            let y ← hApplyExtractor O f x
            hExtractBody env O strict (hExtract env o O strict params n) f y : HM HVal).run h)
        (if excluded o f params then .error .excluded
          else if v.isNone then .ok .none
          else do
            let w ← applyExtractor o f v
            extractBody env o strict (extract env o strict params n) f w) := by
      intro _
      split
      · exact Sim.error (Retains.refl _)
      · exact unlessNone_good hx hbody
    cases f with
    | undef s => exact Sim.error (Retains.refl _)
    | _ => exact hstep fun s h => nomatch h

end HT
end Scheme
