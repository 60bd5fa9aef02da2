import Verif.Lemmas.HeapInst

/-! Interpolation on the heap corresponds to that of values. -/

namespace Scheme

open HM

namespace HT

variable {env : Env} {t : Templates} {T : HTemplates} {K K0 : Nat → Prop} {hB : Heap}

theorem notUndefined_eq (r : Except Exn Val) : notUndefined r = vSkip isUndefinedParameter r := by
  cases r with
  | ok v => rfl
  | error e => cases e <;> rfl

theorem interpolateItems_eq (rec : Ext) (item : Field) : ∀ vs, interpolateItems env rec item vs =
    vAll (fun v => (extractChild env rec item v).map some) vs
  | [] => rfl
  | v :: vs => by
    unfold interpolateItems vAll
    rw [interpolateItems_eq rec item vs, map_eq_bind, bind_assoc]
    rfl

theorem interpolateSlots_eq (rec : Ext) (l : List Val) : ∀ fs (i : Nat), interpolateSlots env rec fs (l.drop i) =
    vSlots (vItemAt l) (fun f v => (extractChild env rec f v).map some) i fs
  | [], i => by unfold interpolateSlots vSlots; rfl
  | f :: fs, i => by
    unfold vSlots
    rw [← interpolateSlots_eq rec l fs (i + 1)]
    unfold vItemAt
    cases hl : l[i]? with
    | none =>
      rw [List.drop_eq_nil_of_le (List.getElem?_eq_none_iff.1 hl)]
      rfl
    | some v =>
      obtain ⟨hlt, hv⟩ := List.getElem?_eq_some_iff.1 hl
      rw [List.drop_eq_getElem_cons hlt, hv]
      show (extractChild env rec f v >>= fun x => interpolateSlots env rec fs (l.drop (i + 1)) >>= fun r' => .ok (x :: r')) =
        (extractChild env rec f v).map some >>= _
      rw [map_eq_bind, bind_assoc]
      rfl

theorem keepEntry_eq (k : Val) (x : Option Val) (r : List (Val × Val)) : keepEntry k x r = x.toList.map (fun w => (k, w)) ++ r := by
  cases x <;> rfl

theorem interpolateEntries_eq (rec : Ext) (value : Field) : ∀ vs, interpolateEntries env rec value vs =
    vEntries (fun _ v => vSkip isUndefinedParameter (extractChild env rec value v)) vs
  | [] => rfl
  | (k, v) :: vs => by
    unfold interpolateEntries vEntries
    rw [interpolateEntries_eq rec value vs, notUndefined_eq]
    simp only [keepEntry_eq]

theorem interpolateMembers_eq (rec : Ext) (d : List (Val × Val)) : ∀ defn, interpolateMembers env rec d defn =
    vMembers (fun name => .ok (dictGet d (.str name))) (fun f v => vSkip isUndefinedParameter (extractChild env rec f v)) defn
  | [] => rfl
  | (name, f) :: r => by
    unfold interpolateMembers vMembers
    rw [interpolateMembers_eq rec d r]
    cases dictGet d (.str name) with
    | none => rfl
    | some v =>
      dsimp only
      rw [notUndefined_eq]
      simp only [keepEntry_eq]
      rfl

theorem hInterpolateParams_good (hT : DescribesT t T K0 hB) (simple : Bool) :
    Serves K0 hB (fun _ => True) (hInterpolateParams env T simple) (interpolateParams env t simple) := by
  intro K h x v hK0 hK hk _ hx
  cases hx with
  | atom ha =>
    cases v <;> first
      | exact Sim.error (Retains.refl _)
      | (rename_i s
         unfold hInterpolateParams interpolateParams
         dsimp only
         split
         · exact Sim.ok (Retains.refl _) (.atom rfl)
         · split
           · exact computes_iff.1 (hT.render s K h hK0 hK hk)
           · cases variableExpr env.u s with
             | some e => exact computes_iff.1 (hT.evaluate _ K h hK0 hK hk)
             | none => exact Sim.ok (Retains.refl _) (.atom rfl))
  | list _ _ => exact Sim.error (Retains.refl _)
  | tuple _ _ => exact Sim.error (Retains.refl _)
  | dict _ _ => exact Sim.error (Retains.refl _)

theorem interpolateParams_keys (hT : DescribesT t T K0 hB) {v w : Val} (h : interpolateParams env t true v = .ok w) : RealKeys w := by
  unfold interpolateParams at h
  split at h
  · split at h
    · cases h; exact .atom rfl
    · split at h
      · rename_i hf; cases hf
      · split at h
        · exact hT.evaluateKeys _ _ h
        · cases h; exact .atom rfl
  · cases h

theorem is_eq {A : Cells} {x : HVal} {v : Val} (p : Val → Bool) (hp : ∀ v, v.isAtom = false → p v = false) (hx : Depicts A x v) : x.is p = p v := by
  cases hx with
  | atom ha => rfl
  | list _ _ => exact (hp _ rfl).symm
  | tuple _ _ => exact (hp _ rfl).symm
  | dict _ _ => exact (hp _ rfl).symm

/-- What `if isinstance(subject, string)` leads to. -/
def vEvaluated (env : Env) (t : Templates) (v : Val) : Except Exn Val := if v.isStr then interpolateParams env t true v else .ok v

theorem hEvaluated_good (hT : DescribesT t T K0 hB) : Serves K0 hB RealKeys (hEvaluated env T) (vEvaluated env t) := by
  intro K h x v hK0 hK hk hv hx
  unfold hEvaluated vEvaluated
  rw [is_eq Val.isStr (fun v hv => by cases v <;> first | rfl | cases hv) hx]
  split
  · exact hInterpolateParams_good hT true K h x v hK0 hK hk trivial hx
  · exact Sim.ok (Retains.refl _) (hx.mono (part_keeps (Retains.refl _) fun _ h => .inl h))

theorem vEvaluated_keys (hT : DescribesT t T K0 hB) {v w : Val} (hv : RealKeys v) (h : vEvaluated env t v = .ok w) : RealKeys w := by
  unfold vEvaluated at h
  split at h
  · exact interpolateParams_keys hT h
  · cases h; exact hv

theorem evaluated_bind (v : Val) (k : Val → Except Exn Val) :
    (if v.isStr then interpolateParams env t true v >>= k else (Except.ok v >>= k)) = (vEvaluated env t v >>= k) := by
  unfold vEvaluated
  split <;> rfl

theorem hConverted_sim {α : Type} {wrap : α → Val} (hw : ∀ y, (wrap y).isAtom = true) (conv : Val → Option α) {h0 h : Heap} (hk : Retains h0 h)
    {P : Nat → Prop} {x : HVal} {v : Val} (hx : Depicts (part h P) x v) :
    Sim h0 ((hConverted wrap conv x).run h) (converted wrap (conv v)) (fun h' y w => Depicts (part h' (since K h0.length)) y w) := by
  unfold hConverted
  rw [bind_read hx]
  cases conv v with
  | none => exact Sim.error hk
  | some y => exact Sim.ok hk (.atom (hw y))

theorem hInterpolateLeaf_good (hT : DescribesT t T K0 hB) (k : Leaf) : Serves K0 hB RealKeys (hInterpolateLeaf env T k) (interpolateLeaf env t k) := by
  intro K h x v hK0 hK hk hv hx
  have hx' : Depicts (part h (since K h.length)) x v := hx.mono (part_keeps (Retains.refl _) fun _ h => .inl h)
  have hp : ∀ simple, Agrees K h ((hInterpolateParams env T simple x).run h) (interpolateParams env t simple v) := fun simple =>
    hInterpolateParams_good hT simple K h x v hK0 hK hk trivial hx
  have hnum : x.is isNumber = isNumber v := is_eq isNumber (fun v hv => by cases v <;> first | rfl | cases hv) hx
  have hequiv : ∀ k, x.is (isEquivalent k) = isEquivalent k v := fun k =>
    is_eq _ (fun v hv => by cases k <;> cases v <;> first | rfl | cases hv) hx
  have hother : ∀ k, Agrees K h ((if x.is (isEquivalent k) then return x else hInterpolateParams env T true x : HM HVal).run h)
      (if isEquivalent k v then .ok v else interpolateParams env t true v) := by
    intro k
    rw [hequiv]
    split
    · exact Sim.ok (Retains.refl _) hx'
    · exact hp true
  have hnumber : ∀ {α : Type} (wrap : α → Val) (conv : Val → Option α), (∀ y, (wrap y).isAtom = true) →
      Agrees K h ((if x.is isNumber then hConverted wrap conv x
        else do hConverted wrap conv (← hInterpolateParams env T true x)).run h)
      (if isNumber v then converted wrap (conv v) else do
        let x ← interpolateParams env t true v
        converted wrap (conv x)) := by
    intro α wrap conv hw
    rw [hnum]
    split
    · exact hConverted_sim hw conv (Retains.refl _) hx
    · exact Sim.bind (hp true) fun h' y w hk' hy => hConverted_sim hw conv hk' hy
  cases k with
  | integer _ _ => exact hnumber .int (toInt env) fun _ => rfl
  | float _ _ => exact hnumber .float (toFloat env) fun _ => rfl
  | decimal _ _ =>
    have hrest : Agrees K h ((hInterpolateParams env T true x >>= fun y => hConverted .decimal (toDec env) y).run h)
        (interpolateParams env t true v >>= fun x => converted .decimal (toDec env x)) :=
      Sim.bind (hp true) fun h' y w hk' hy => hConverted_sim (fun _ => rfl) (toDec env) hk' hy
    cases hx with
    | atom ha =>
      cases v <;> first
        | exact hrest
        | exact Sim.ok (Retains.refl _) (.atom rfl)
    | list _ _ => exact hrest
    | tuple _ _ => exact hrest
    | dict _ _ => exact hrest
  | text _ => exact hp false
  | email _ => exact hp false
  | token _ => exact hp false
  | uuid => exact hp true
  | enumeration vals _ =>
    unfold hInterpolateLeaf interpolateLeaf
    dsimp only
    rw [bind_read hx]
    split
    · exact Sim.ok (Retains.refl _) hx'
    · refine Sim.bind (hp true) fun h' y w hk' hy => ?_
      rw [bind_read hy]
      split
      · exact Sim.ok hk' hy
      · exact Sim.error hk'
  | surrogate _ =>
    unfold hInterpolateLeaf interpolateLeaf
    dsimp only
    rw [evaluated_bind]
    refine Sim.bind (hEvaluated_good hT K h x v hK0 hK hk hv hx) fun h1 y w hk1 hy => ?_
    rcases dictItems_run hy with ⟨vs, d, a, rfl, rfl, hcell, hrun, hd⟩ | ⟨hn, hrun⟩
    · dsimp only
      rw [hm_ok hrun]
      refine agrees_then hk1 (computes_iff.1 (hT.surrogate vs _ h1 (.ref a) (fun i hi => ⟨.inl (hK0 i hi), Nat.lt_of_lt_of_le (hK i (hK0 i hi)) hk1.1⟩)
        (fun i hi => hi.2) (hk.trans hk1) (hy.mono part_bounded)))
    · cases hy with
      | atom ha =>
        cases w <;> first
          | exact Sim.ok hk1 (.atom rfl)
          | exact absurd rfl (hn _)
          | (dsimp only; rw [hm_ok hrun]; exact Sim.error hk1)
      | list _ _ => dsimp only; rw [hm_ok hrun]; exact Sim.error hk1
      | tuple _ _ => dsimp only; rw [hm_ok hrun]; exact Sim.error hk1
      | dict _ _ => exact absurd rfl (hn _)
  | _ => exact hother _

theorem entryOf_run {h0 h : Heap} (hk : Retains h0 h) {d : List (HVal × HVal)} {vs : List (Val × Val)} (hd : DepictsD (part h0 K) d vs)
    (key : Val) (ha : key.isAtom = true) :
    ∃ y, (hEntryOf d key).run h = (.ok y, h) ∧ ODepicts (part h K) y (dictGet vs key) :=
  ⟨_, rfl, hget_sim (hd.mono (part_keeps hk fun _ h => h)) key ha⟩

theorem interpolateMembers_good {hrec : HExt} {rec : Ext} {h : Heap} (hK0 : ∀ i, K0 i → K i) (hK : ∀ i, K i → i < h.length)
    (hk : Retains hB h) {d : List (HVal × HVal)} {vs : List (Val × Val)} (hv : RealKeys (.dict vs)) (hd : DepictsD (part h K) d vs)
    {defn : List (Str × Field)} (hnd : (defn.map (·.1)).Nodup)
    (hs : ∀ e ∈ defn, Serves K0 hB RealKeys (hChild env hrec e.2) (extractChild env rec e.2)) :
    Agrees K h ((hNewDict fun a => hPutMembers (fun name => hEntryOf d (.str name))
        (fun f y => hSkip isUndefinedParameter (hChild env hrec f y)) a defn).run h)
      ((interpolateMembers env rec vs defn).map .dict) := by
  rw [interpolateMembers_eq]
  refine members_good (D := RealKeys) hK0 hK hk ?_ (fun e he => serves_skip (hs e he) isUndefinedParameter) hnd
  intro name h' hk'
  obtain ⟨y, hrun, hy⟩ := entryOf_run hk' hd (.str name) rfl
  rw [hrun]
  refine Sim.ok (Retains.refl _) ⟨?_, fun w hw => dictGet_keys hv hw⟩
  generalize dictGet vs (.str name) = w at hy
  cases hy with
  | none => exact .none
  | some hy => exact .some (hy.mono (part_keeps (Retains.refl _) fun _ h => .inl h))

theorem hInterpolateIdentities_sim {h0 : Heap} {d : List (HVal × HVal)} {vs : List (Val × Val)} (hd : DepictsD (part h0 K) d vs) :
    ∀ {variants : List (Val × List (Str × Field))}, (∀ e ∈ variants, e.1.isAtom = true) → ∀ {h : Heap}, Retains h0 h →
    Sim h0 ((hInterpolateIdentities d variants).run h) (interpolateIdentities vs variants) (fun h' _ r => h' = h ∧ r = [])
  | [], _, h, hk => Sim.ok hk ⟨rfl, rfl⟩
  | (i, _) :: r, ha, h, hk => by
    unfold hInterpolateIdentities interpolateIdentities
    obtain ⟨y, hrun, hy⟩ := entryOf_run hk hd i (ha _ List.mem_cons_self)
    rw [hm_ok hrun]
    generalize dictGet vs i = w at hy
    cases hy with
    | none => exact hInterpolateIdentities_sim hd (fun e he => ha e (List.mem_cons_of_mem _ he)) hk
    | some _ => exact Sim.error hk

theorem interpolateUnion_error (fs : List Field) : ∃ e, interpolateUnion env fs = .error e := by
  unfold interpolateUnion
  cases fs with
  | nil => exact ⟨_, rfl⟩
  | cons f r => dsimp only; cases resolve env f <;> exact ⟨_, rfl⟩

theorem hInterpolateBody_good {hrec : HExt} {rec : Ext}
    (hr : ∀ g, Everywhere env Declarable g → Serves K0 hB RealKeys (hrec g) (rec g)) {f : Field} (hf : Everywhere env Declarable f) :
    Serves K0 hB RealKeys (hInterpolateBody env hrec f) (interpolateBody env rec f) := by
  intro K h x v hK0 hK hk hv hx
  cases f with
  | leaf c k => exact Sim.ok (Retains.refl _) (hx.mono (part_keeps (Retains.refl _) fun _ h => .inl h))
  | undef s => exact Sim.error (Retains.refl _)
  | union c fs =>
    unfold hInterpolateBody interpolateBody
    obtain ⟨e, he⟩ := interpolateUnion_error (env := env) fs
    dsimp only
    rw [he]
    exact Sim.error (Retains.refl _)
  | sequence c item mn mx u =>
    have hs : Serves K0 hB RealKeys (hChild env hrec item) (extractChild env rec item) :=
      hChild_serves fun g hg => hr g (hf.child (.item hg))
    unfold hInterpolateBody interpolateBody
    dsimp only
    rcases tupleItems_run hx with ⟨vs, l, hvs, hrun, hl⟩ | ⟨hn1, hn2, hrun⟩
    · rw [hm_ok hrun]
      have hg := items_good hK0 hK hk (serves_some hs) hl (seq_keys hv hvs)
      rw [← interpolateItems_eq] at hg
      rcases hvs with rfl | rfl <;> exact hg
    · rw [hm_ok hrun]
      cases v <;> first | exact absurd rfl (hn1 _) | exact absurd rfl (hn2 _) | exact Sim.error (Retains.refl _)
  | tuple c fs =>
    have hs : ∀ f ∈ fs, Serves K0 hB RealKeys (hChild env hrec f) (extractChild env rec f) := fun f hm =>
      hChild_serves fun g hg => hr g (hf.child (.tuple hm hg))
    unfold hInterpolateBody interpolateBody
    dsimp only
    rcases tupleItems_run hx with ⟨vs, l, hvs, hrun, hl⟩ | ⟨hn1, hn2, hrun⟩
    · rw [hm_ok hrun]
      have hg := slots_good (D := RealKeys) (fs := fs) (q := fun f v => (extractChild env rec f v).map some) hK0 hK hk
        (fetch_item hl (seq_keys hv hvs)) fun f hm => serves_some (hs f hm)
      rw [← interpolateSlots_eq, List.drop_zero] at hg
      rcases hvs with rfl | rfl <;> exact hg
    · rw [hm_ok hrun]
      cases v <;> first | exact absurd rfl (hn1 _) | exact absurd rfl (hn2 _) | exact Sim.error (Retains.refl _)
  | map c key value req =>
    have hs : Serves K0 hB RealKeys (hChild env hrec value) (extractChild env rec value) :=
      hChild_serves fun g hg => hr g (hf.child (.value hg))
    unfold hInterpolateBody interpolateBody
    dsimp only
    rcases dictItems_run hx with ⟨vs, d, a, rfl, rfl, hc, hrun, hd⟩ | ⟨hn, hrun⟩
    · rw [hm_ok hrun]
      dsimp only
      rw [interpolateEntries_eq]
      refine entries_good (D := RealKeys) hK ?_ hd (RealKeys.of_dict hv).2.2 (RealKeys.of_dict hv).1
      intro k vk _ _ h' x v hk' hv' hx'
      exact serves_skip hs isUndefinedParameter K h' x v hK0 (fun i hi => Nat.lt_of_lt_of_le (hK i hi) hk'.1) (hk.trans hk') hv' hx'
    · rw [hm_ok hrun]
      cases v <;> first | exact absurd rfl (hn _) | exact Sim.error (Retains.refl _)
  | «structure» c defn s ko =>
    have hs : ∀ e ∈ defn, Serves K0 hB RealKeys (hChild env hrec e.2) (extractChild env rec e.2) := fun e hm =>
      hChild_serves fun g hg => hr g (hf.child (.member (n := e.1) hm hg))
    unfold hInterpolateBody interpolateBody
    dsimp only
    rcases dictItems_run hx with ⟨vs, d, a, rfl, rfl, hc, hrun, hd⟩ | ⟨hn, hrun⟩
    · rw [hm_ok hrun]
      exact interpolateMembers_good hK0 hK hk hv hd hf.here.1 hs
    · rw [hm_ok hrun]
      cases v <;> first | exact absurd rfl (hn _) | exact Sim.error (Retains.refl _)
  | poly c disc variants s ko =>
    unfold hInterpolateBody interpolateBody
    dsimp only
    rcases dictItems_run hx with ⟨vs, d, a, rfl, rfl, hc, hrun, hd⟩ | ⟨hn, hrun⟩
    · rw [hm_ok hrun]
      dsimp only
      obtain ⟨y, hrun, hy⟩ := entryOf_run (Retains.refl h) hd (.str (disc.name.getD [])) rfl
      rw [hm_ok hrun]
      generalize dictGet vs (.str (disc.name.getD [])) = w at hy
      cases hy with
      | none => exact Sim.error (Retains.refl _)
      | some hy =>
        dsimp only
        rw [bind_read hy]
        split
        · rename_i id _
          cases hva : variantAt variants id with
          | error e => exact Sim.error (Retains.refl _)
          | ok defn =>
            rw [bind_lift]
            have hmem : ∃ i, (i, defn) ∈ variants := by
              unfold variantAt at hva
              split at hva
              · split at hva
                · cases hva; rename_i hvg; exact variantGet_mem hvg
                · cases hva
              · cases hva
            obtain ⟨i, hi⟩ := hmem
            exact interpolateMembers_good hK0 hK hk hv hd (hf.here.1 _ hi) fun e hm =>
              hChild_serves fun g hg => hr g (hf.child (.variant (n := e.1) hi hm hg))
        · refine hNewDict_sim ?_
          refine (hInterpolateIdentities_sim hd (hf.here.2 _ _ _ _ _ rfl) (Retains.snoc h (.dict []))).mono ?_
          rintro h2 _ _ _ ⟨rfl, rfl⟩
          exact dictAt_new h
    · rw [hm_ok hrun]
      cases v <;> first | exact absurd rfl (hn _) | exact Sim.error (Retains.refl _)

theorem hInterpolate_serves (hT : DescribesT t T K0 hB) : ∀ n f, Everywhere env Declarable f →
    Serves K0 hB RealKeys (hInterpolate env T n f) (interpolate env t n f)
  | 0, _, _ => fun _ _ _ _ _ _ _ _ _ => Sim.error (Retains.refl _)
  | n + 1, f, hf => by
    intro K h x v hK0 hK hk hv hx
    have hbody : Agrees K h ((hEvaluated env T x >>= fun y => hInterpolateBody env (hInterpolate env T n) f y).run h)
        (vEvaluated env t v >>= fun w => interpolateBody env (interpolate env t n) f w) :=
      agrees_bind hK0 hK hk (hEvaluated_good hT K h x v hK0 hK hk hv hx) (fun w hw => vEvaluated_keys hT hv hw)
        (hInterpolateBody_good (fun g hg => hInterpolate_serves hT n g hg) hf)
    rw [← evaluated_bind] at hbody
    cases f with
    | undef s => exact Sim.error (Retains.refl _)
    | leaf c k => exact unlessNone_good hx (hInterpolateLeaf_good hT k K h x v hK0 hK hk hv hx)
    | _ => exact unlessNone_good hx hbody

end HT
end Scheme
