import Verif.Lemmas.HeapLoops
import Verif.Lemmas.Leaf

/-! Processing on the heap corresponds to processing of values. -/

namespace Scheme

open HM

variable {env : Env} {E : HEnv} {hrec : HProc} {rec : Proc} {K J : Nat → Prop}

/-! ### Leaves -/

mutual
theorem build_run (v : Val) (h : Heap) : ∃ x h', (build v).run h = (.ok x, h') ∧ Retains h h' ∧
    ∀ m, m ≤ h.length → Depicts (part h' (m ≤ ·)) x v := by
  match v with
  | .list l =>
    obtain ⟨xs, h1, hr, hk, hx⟩ := buildL_run l h
    refine ⟨.ref h1.length, h1 ++ [.list xs], ?_, hk.trans (Retains.snoc _ _), fun m hm => ?_⟩
    · unfold build; rw [hm_ok hr, bind_alloc]; rfl
    · exact .list (part_some.2 ⟨Nat.le_trans hm hk.1, by simp⟩) ((hx m hm).mono (part_keeps (Retains.snoc _ _) fun _ h => h))
  | .tuple l =>
    obtain ⟨xs, h1, hr, hk, hx⟩ := buildL_run l h
    refine ⟨.ref h1.length, h1 ++ [.tuple xs], ?_, hk.trans (Retains.snoc _ _), fun m hm => ?_⟩
    · unfold build; rw [hm_ok hr, bind_alloc]; rfl
    · exact .tuple (part_some.2 ⟨Nat.le_trans hm hk.1, by simp⟩) ((hx m hm).mono (part_keeps (Retains.snoc _ _) fun _ h => h))
  | .dict l =>
    obtain ⟨xs, h1, hr, hk, hx⟩ := buildD_run l h
    refine ⟨.ref h1.length, h1 ++ [.dict xs], ?_, hk.trans (Retains.snoc _ _), fun m hm => ?_⟩
    · unfold build; rw [hm_ok hr, bind_alloc]; rfl
    · exact .dict (part_some.2 ⟨Nat.le_trans hm hk.1, by simp⟩) ((hx m hm).mono (part_keeps (Retains.snoc _ _) fun _ h => h))
  | .none | .bool _ | .int _ | .float _ | .str _ | .bytes _ | .date _ | .time _ | .datetime _ | .decimal _ | .field _
  | .surr _ | .obj _ | .exc .. => exact ⟨_, h, rfl, Retains.refl h, fun _ _ => .atom rfl⟩
theorem buildL_run (l : List Val) (h : Heap) : ∃ x h', (buildL l).run h = (.ok x, h') ∧ Retains h h' ∧
    ∀ m, m ≤ h.length → DepictsL (part h' (m ≤ ·)) x l := by
  match l with
  | [] => exact ⟨[], h, rfl, Retains.refl h, fun _ _ => .nil⟩
  | v :: r =>
    obtain ⟨x, h1, hr, hk, hx⟩ := build_run v h
    obtain ⟨xs, h2, hr2, hk2, hx2⟩ := buildL_run r h1
    refine ⟨x :: xs, h2, ?_, hk.trans hk2, fun m hm => ?_⟩
    · unfold buildL; rw [hm_ok hr, hm_ok hr2]; rfl
    · exact .cons ((hx m hm).mono (part_keeps hk2 fun _ h => h)) (hx2 m (Nat.le_trans hm hk.1))
theorem buildD_run (d : List (Val × Val)) (h : Heap) : ∃ x h', (buildD d).run h = (.ok x, h') ∧ Retains h h' ∧
    ∀ m, m ≤ h.length → DepictsD (part h' (m ≤ ·)) x d := by
  match d with
  | [] => exact ⟨[], h, rfl, Retains.refl h, fun _ _ => .nil⟩
  | (k, v) :: r =>
    obtain ⟨x, h1, hr, hk, hx⟩ := build_run k h
    obtain ⟨y, h2, hr2, hk2, hy⟩ := build_run v h1
    obtain ⟨xs, h3, hr3, hk3, hxs⟩ := buildD_run r h2
    refine ⟨(x, y) :: xs, h3, ?_, hk.trans (hk2.trans hk3), fun m hm => ?_⟩
    · unfold buildD; rw [hm_ok hr, hm_ok hr2, hm_ok hr3]; rfl
    · have h1m := Nat.le_trans hm hk.1
      exact .cons ((hx m hm).mono (part_keeps (hk2.trans hk3) fun _ h => h)) ((hy m h1m).mono (part_keeps hk3 fun _ h => h))
        (hxs m (Nat.le_trans h1m hk2.1))
end

theorem pyIn_atom {v : Val} {l : List Val} (hl : ∀ w ∈ l, w.isAtom = true) (h : pyIn v l = true) : v.isAtom = true := by
  unfold pyIn at h
  obtain ⟨w, hw, he⟩ := List.any_eq_true.1 h
  have ha := hl w hw
  cases v <;> first
    | rfl
    | (cases w <;> first
        | (cases ha; done)
        | (simp [pyEq, numOf] at he))

theorem handsOut_same {c : Common} {k : Leaf} {v w : Val} {ph : Phase} {ser : Bool} {anc : List Str} (hpre : c.pre = none)
    (hk : k.handsOut = true) (hv : v.isAtom = false) (hp : processLeaf env c k v ph ser anc = .ok w)
    (hw : w.isAtom = false) : w = v ∧ ∀ vals ig, k = .enumeration vals ig → pyIn v vals = true := by
  rcases processLeaf_ok.1 hp with ⟨_, rfl⟩ | ⟨_, v1, v2, v3, hd, hp, _, hval, he⟩
  · cases hw
  have hv1 : v1 = v := by
    unfold decodeStep at hd
    split at hd
    · cases k <;> first
        | (cases hk; done)
        | (cases v <;> first | (cases hv; done) | (simp only [unserializeLeaf, Except.ok.injEq] at hd; exact hd.symm))
    · cases hd; rfl
  have hv2 : v2 = v1 := by
    unfold preprocess at hp
    rw [hpre] at hp
    cases k <;> first | (cases hk; done) | (cases hp; rfl)
  have hv3 : v3 = v2 ∧ ∀ vals ig, k = .enumeration vals ig → pyIn v2 vals = true := by
    cases k <;> first
      | (cases hk; done)
      | (cases hval; exact ⟨rfl, fun _ _ h => nomatch h⟩)
      | (simp only [validateLeaf] at hval
         split at hval
         · rename_i hin; cases hval; exact ⟨rfl, fun _ _ h => by cases h; exact hin⟩
         · cases hval)
  subst hv1 hv2
  obtain ⟨rfl, hen⟩ := hv3
  refine ⟨?_, hen⟩
  unfold encodeStep serOut at he
  split at he
  · cases k <;> first
      | (cases hk; done)
      | (simp only [serializeLeaf] at he; cases he; rfl)
      | (exfalso
         cases v3 <;> first
           | (cases hv; done)
           | (simp only [serializeLeaf] at he
              split at he
              · cases he
              · rename_i r hne heq
                split at he
                · cases he; cases hw
                · cases he))
  · cases he; rfl

theorem hLeaf_good (hq : ∀ k x, E.take k x = pure ()) {h : Heap} {c : Common} {k : Leaf} (hf : FitsAt E K J h (.leaf c k)) {x : HVal} {v : Val}
    (hx : Depicts (part h K) x v) (ph : Phase) (ser : Bool) (anc : List Str) :
    Agrees J h ((hLeaf env E c k x ph ser anc).run h) (processLeaf env c k v ph ser anc) := by
  unfold hLeaf
  rw [bind_read hx, hm_ok (x := ()) (h' := h) (by unfold hTake; rw [hq, ite_self]; rfl)]
  cases hp : processLeaf env c k v ph ser anc with
  | error e => exact Sim.error (Retains.refl h)
  | ok w =>
    rw [bind_lift]
    have hbuild : Agrees J h ((build w).run h) (.ok w) := by
      obtain ⟨y, h', hr, hk, hy⟩ := build_run w h
      rw [hr]
      exact Sim.ok hk ((hy _ (Nat.le_refl _)).mono (part_keeps (Retains.refl _) fun i hi => .inr hi))
    cases x with
    | atom u => exact hbuild
    | ref a =>
      dsimp only
      split
      · rename_i hcond
        simp only [Bool.and_eq_true, Bool.not_eq_true'] at hcond
        have hvn : v.isAtom = false := by cases hx <;> rfl
        obtain ⟨rfl, hen⟩ := handsOut_same (hf.1.1 c rfl) hcond.1 hvn hp hcond.2
        rcases hf.2.2 with hkj | hset
        · exact Sim.ok (Retains.refl h) (hx.mono (part_keeps (Retains.refl _) fun i hi => .inl (hkj i hi)))
        · exfalso
          cases k <;> first
            | (cases hcond.1; done)
            | exact hset
            | (have := pyIn_atom hset (hen _ _ rfl); rw [this] at hvn; cases hvn)
      · exact hbuild

/-! ### Structural fields -/

theorem hIsNull_run {f : Field} {c : Common} (hc : f.common? = some c) (hn : ∀ v, nullView f v = v) {A : Cells} {x : HVal} {v : Val}
    (hx : Depicts A x v) (anc : List Str) (h : Heap) : (hIsNull f x anc).run h = (isNull f v anc, h) := by
  cases hx with
  | atom => rfl
  | list | tuple | dict => simp only [hIsNull, isNull, hc, hn]; rfl

theorem Sim.null {α β : Type} {f : Field} {c : Common} (hc : f.common? = some c) (hn : ∀ v, nullView f v = v) {A : Cells} {x : HVal}
    {v : Val} (hx : Depicts A x v) {anc : List Str} {h0 h : Heap} (hk : Retains h0 h) {k : Bool → HM α} {k' : Bool → Except Exn β}
    {Q : Heap → α → β → Prop} (hs : ∀ b, isNull f v anc = .ok b → Sim h0 ((k b).run h) (k' b) Q) :
    Sim h0 ((hIsNull f x anc >>= k).run h) (isNull f v anc >>= k') Q := by
  have hrun := hIsNull_run hc hn hx anc h
  cases hi : isNull f v anc with
  | error e => rw [hi] at hrun; rw [hm_error hrun]; exact Sim.error hk
  | ok b => rw [hi] at hrun; rw [hm_ok hrun]; exact hs b hi

theorem listItems_run {h : Heap} {P : Nat → Prop} {x : HVal} {v : Val} (hx : Depicts (part h P) x v) :
    (∃ vs l, v = .list vs ∧ (listItems x).run h = (.ok (some l), h) ∧ DepictsL (part h P) l vs) ∨
    ((∀ vs, v ≠ .list vs) ∧ (listItems x).run h = (.ok none, h)) := by
  cases hx with
  | atom ha => right; exact ⟨fun vs e => (by subst e; cases ha), rfl⟩
  | list hc hl =>
    left; refine ⟨_, _, rfl, ?_, hl⟩
    unfold listItems; rw [hm_ok (m := HM.get _) (h' := h) rfl, (part_some.1 hc).2]; rfl
  | tuple hc hl =>
    right; refine ⟨fun vs e => (by cases e), ?_⟩
    unfold listItems; rw [hm_ok (m := HM.get _) (h' := h) rfl, (part_some.1 hc).2]; rfl
  | dict hc hl =>
    right; refine ⟨fun vs e => (by cases e), ?_⟩
    unfold listItems; rw [hm_ok (m := HM.get _) (h' := h) rfl, (part_some.1 hc).2]; rfl

theorem tupleItems_run {h : Heap} {P : Nat → Prop} {x : HVal} {v : Val} (hx : Depicts (part h P) x v) :
    (∃ vs l, (v = .list vs ∨ v = .tuple vs) ∧ (tupleItems x).run h = (.ok (some l), h) ∧ DepictsL (part h P) l vs) ∨
    ((∀ vs, v ≠ .list vs) ∧ (∀ vs, v ≠ .tuple vs) ∧ (tupleItems x).run h = (.ok none, h)) := by
  cases hx with
  | atom ha => right; exact ⟨fun vs e => (by subst e; cases ha), fun vs e => (by subst e; cases ha), rfl⟩
  | list hc hl =>
    left; refine ⟨_, _, .inl rfl, ?_, hl⟩
    unfold tupleItems; rw [hm_ok (m := HM.get _) (h' := h) rfl, (part_some.1 hc).2]; rfl
  | tuple hc hl =>
    left; refine ⟨_, _, .inr rfl, ?_, hl⟩
    unfold tupleItems; rw [hm_ok (m := HM.get _) (h' := h) rfl, (part_some.1 hc).2]; rfl
  | dict hc hl =>
    right; refine ⟨fun vs e => (by cases e), fun vs e => (by cases e), ?_⟩
    unfold tupleItems; rw [hm_ok (m := HM.get _) (h' := h) rfl, (part_some.1 hc).2]; rfl

theorem dictItems_run {h : Heap} {P : Nat → Prop} {x : HVal} {v : Val} (hx : Depicts (part h P) x v) :
    (∃ vs d a, v = .dict vs ∧ x = .ref a ∧ h[a]? = some (.dict d) ∧ (dictItems x).run h = (.ok (some d), h) ∧
      DepictsD (part h P) d vs) ∨
    ((∀ vs, v ≠ .dict vs) ∧ (dictItems x).run h = (.ok none, h)) := by
  cases hx with
  | atom ha => right; exact ⟨fun vs e => (by subst e; cases ha), rfl⟩
  | dict hc hl =>
    left; refine ⟨_, _, _, rfl, rfl, (part_some.1 hc).2, ?_, hl⟩
    unfold dictItems; rw [hm_ok (m := HM.get _) (h' := h) rfl, (part_some.1 hc).2]; rfl
  | tuple hc hl =>
    right; refine ⟨fun vs e => (by cases e), ?_⟩
    unfold dictItems; rw [hm_ok (m := HM.get _) (h' := h) rfl, (part_some.1 hc).2]; rfl
  | list hc hl =>
    right; refine ⟨fun vs e => (by cases e), ?_⟩
    unfold dictItems; rw [hm_ok (m := HM.get _) (h' := h) rfl, (part_some.1 hc).2]; rfl

theorem hInvalid_run {α : Type} {h : Heap} {P : Nat → Prop} {f : Field} {x : HVal} {v : Val} (hx : Depicts (part h P) x v) (anc : List Str) :
    (hInvalid (α := α) f x anc).run h = (.error (mkErr f .invalidType anc v c!"invalid" []), h) := by
  unfold hInvalid; rw [bind_read hx]; rfl

theorem hSequence_good (hr : Recs env E hrec rec K J) {h : Heap} (hb : Below K J h) {c : Common} {item : Field}
    {mn mx : Option Nat} {unique : Bool} (hf : Fits env E K J h (.sequence c item mn mx unique)) {x : HVal} {v : Val}
    (hx : Depicts (part h K) x v) (ph : Phase) (ser : Bool) (anc : List Str) :
    Agrees J h ((hSequence env E hrec c item mn mx unique x ph ser anc).run h)
      (processSequence env rec c item mn mx unique v ph ser anc) := by
  have hk := Retains.refl h
  have hpre : c.pre = none := hf.here.1.1 c rfl
  unfold hSequence processSequence
  refine Sim.null rfl (fun _ => rfl) hx hk ?_
  intro b hb0
  cases b with
  | true => exact Sim.ok hk (.atom rfl)
  | false =>
    simp only [Bool.false_eq_true, if_false]
    rcases listItems_run hx with ⟨vs, l, rfl, hrun, hl⟩ | ⟨hn, hrun⟩
    · have hraw : (hRawPre E c x).run h = (.ok x, h) := by unfold hRawPre; rw [hpre]; rfl
      rw [hm_ok hrun]
      dsimp only
      rw [hm_ok hraw, hm_ok hrun]
      simp only [rawPre, hpre, except_bind_ok]
      have hlen := hl.length
      rw [hlen]
      by_cases h1 : violates (fun m => decide (vs.length < m)) mn = true
      · simp only [h1, if_true]
        rw [bind_read hx]; exact Sim.error hk
      by_cases h2 : violates (fun m => decide (vs.length > m)) mx = true
      · simp only [h1, h2, Bool.false_eq_true, if_false, if_true]
        rw [bind_read hx]; exact Sim.error hk
      simp only [h1, h2, Bool.false_eq_true, if_false]
      rw [bind_alloc]
      have hF : ListAt J h (h.length + 1) h.length [] (h ++ [.list []]) :=
        ⟨Retains.snoc _ _, by simp, [], by simp, .nil⟩
      refine Sim.bind (hSeqLoop_sim hr hb (item := item) (fun g hg => hf.child (.item hg)) (m := h.length + 1) (Nat.le_refl _)
        (Nat.lt_succ_self _) ph ser _ 0 true hl hF) ?_
      rintro h' b r hk' ⟨hbr, hF'⟩
      have hbr' : b = r.2 := by simpa using hbr
      subst hbr'
      have hw := hF'.whole (Nat.le_refl _) (Nat.lt_succ_self _)
      rw [List.nil_append] at hw
      have hx' := hx.mono (part_keeps hk' fun _ h => h)
      cases hv : r.2 with
      | false =>
        simp only [Bool.not_false, if_true]
        rw [bind_read hx', bind_read hw]
        exact Sim.error hk'
      | true =>
        simp only [Bool.not_true, Bool.false_eq_true, if_false]
        cases unique with
        | false => exact Sim.ok hk' hw
        | true =>
          simp only [if_true]
          cases hall : r.1.all hashable with
          | false =>
            have hd : (hDuplicates h.length).run h' = (.error (.py .typeError), h') := by
              unfold hDuplicates; rw [bind_read hw]; simp only [hall, Bool.false_eq_true, if_false]; rfl
            rw [hm_error hd]; exact Sim.error hk'
          | true =>
            have hd : (hDuplicates h.length).run h' = (.ok (!allDistinct r.1), h') := by
              unfold hDuplicates; rw [bind_read hw]; simp only [hall, if_true]; rfl
            rw [hm_ok hd]
            cases allDistinct r.1 with
            | true => exact Sim.ok hk' hw
            | false =>
              simp only [Bool.not_false, if_true]
              rw [bind_read hx']; exact Sim.error hk'
    · rw [hm_ok hrun]
      cases v <;> first
        | exact absurd rfl (hn _)
        | (simp only; rw [hInvalid_run hx]; exact Sim.error hk)

theorem hTuple_good (hr : Recs env E hrec rec K J) {h : Heap} (hb : Below K J h) {c : Common} {values : List Field}
    (hf : Fits env E K J h (.tuple c values)) {x : HVal} {v : Val}
    (hx : Depicts (part h K) x v) (ph : Phase) (ser : Bool) (anc : List Str) :
    Agrees J h ((hTuple env E hrec c values x ph ser anc).run h) (processTuple env rec c values v ph ser anc) := by
  have hk := Retains.refl h
  have hpre : c.pre = none := hf.here.1.1 c rfl
  unfold hTuple processTuple
  refine Sim.null rfl (fun _ => rfl) hx hk ?_
  intro b hb0
  cases b with
  | true => exact Sim.ok hk (.atom rfl)
  | false =>
    simp only [Bool.false_eq_true, if_false]
    rcases tupleItems_run hx with ⟨vs, l, hv, hrun, hl⟩ | ⟨hn, hn', hrun⟩
    · have hraw : (hRawPre E c x).run h = (.ok x, h) := by unfold hRawPre; rw [hpre]; rfl
      rw [hm_ok hrun]
      dsimp only
      rw [hm_ok hraw, hm_ok hrun]
      simp only [rawPre, hpre, except_bind_ok]
      have hlen := hl.length
      suffices hbody : Agrees J h ((if l.length ≠ values.length then
            read x >>= fun v => raise (mkErr (.tuple c values) .validation (ancOr (.tuple c values) anc) v c!"length"
              [(c!"length", natStr values.length)])
          else alloc (.list []) >>= fun a => hTupLoop env hrec ph ser (ancOr (.tuple c values) anc) a 0 values l true >>= fun valid =>
            if valid = true then listItems (.ref a) >>= fun r => match r with
              | some ys => alloc (.tuple ys) >>= fun b => pure (HVal.ref b)
              | none => raise (.py .typeError)
            else read x >>= fun v => read (.ref a) >>= fun s =>
              raise (.structural ⟨.validation, ancOr (.tuple c values) anc, [], s, v⟩) : HM HVal).run h)
          (if vs.length ≠ values.length then
            .error (mkErr (.tuple c values) .validation (ancOr (.tuple c values) anc) v c!"length"
              [(c!"length", natStr values.length)])
          else tupLoop env rec ph ser (ancOr (.tuple c values) anc) 0 values vs >>= fun r =>
            if r.2 = true then .ok (.tuple r.1)
            else .error (.structural ⟨.validation, ancOr (.tuple c values) anc, [], .list r.1, v⟩)) by
        rcases hv with rfl | rfl <;> exact hbody
      rw [hlen]
      by_cases h1 : vs.length = values.length
      · simp only [h1, ne_eq, not_true_eq_false, if_false]
        rw [bind_alloc]
        have hF : ListAt J h (h.length + 1) h.length [] (h ++ [.list []]) :=
          ⟨Retains.snoc _ _, by simp, [], by simp, .nil⟩
        refine Sim.bind (hTupLoop_sim hr hb (m := h.length + 1) (Nat.le_refl _) (Nat.lt_succ_self _) ph ser _ 0 true
          (fun f hm g hg => hf.child (.tuple hm hg)) hl hF) ?_
        rintro h' b r hk' ⟨hbr, hF'⟩
        have hbr' : b = r.2 := by simpa using hbr
        subst hbr'
        have hx' := hx.mono (part_keeps hk' fun _ h => h)
        cases hv2 : r.2 with
        | false =>
          simp only [Bool.false_eq_true, if_false]
          have hw := hF'.whole (Nat.le_refl _) (Nat.lt_succ_self _)
          rw [List.nil_append] at hw
          rw [bind_read hx', bind_read hw]
          exact Sim.error hk'
        | true =>
          simp only [if_true]
          obtain ⟨ys, hc, hys⟩ := hF'.cell
          rw [List.nil_append] at hys
          have hitems : (listItems (.ref h.length)).run h' = (.ok (some ys), h') := by
            unfold listItems
            rw [hm_ok (m := HM.get h.length) (x := h'[h.length]?) (h' := h') rfl, hc]
            rfl
          rw [hm_ok hitems]
          dsimp only
          rw [bind_alloc]
          refine Sim.ok (hk'.trans (Retains.snoc _ _)) (.tuple (l := ys) (part_some.2 ⟨.inr hk'.1, by simp⟩) ?_)
          exact hys.mono (part_keeps (Retains.snoc _ _) fun i hi => hi.imp id fun h => by omega)
      · simp only [h1, ne_eq, not_false_eq_true, if_true]
        rw [bind_read hx]; exact Sim.error hk
    · rw [hm_ok hrun]
      cases v <;> first
        | exact absurd rfl (hn _)
        | exact absurd rfl (hn' _)
        | (simp only; rw [hInvalid_run hx]; exact Sim.error hk)

theorem hMap_good (hr : Recs env E hrec rec K J) {h : Heap} (hb : Below K J h) {c : Common} {key : Option Field} {value : Field}
    {required : List Val} (hf : Fits env E K J h (.map c key value required)) {x : HVal} {v : Val}
    (hx : Depicts (part h K) x v) (ph : Phase) (ser : Bool) (anc : List Str) :
    Agrees J h ((hMap env E hrec c key value required x ph ser anc).run h)
      (processMap env rec c key value required v ph ser anc) := by
  have hk := Retains.refl h
  have hpre : c.pre = none := hf.here.1.1 c rfl
  unfold hMap processMap
  refine Sim.null rfl (fun _ => rfl) hx hk ?_
  intro b hb0
  cases b with
  | true => exact Sim.ok hk (.atom rfl)
  | false =>
    simp only [Bool.false_eq_true, if_false]
    rcases dictItems_run hx with ⟨vs, d, a, rfl, rfl, hcell, hrun, hd⟩ | ⟨hn, hrun⟩
    · have hraw : (hRawPre E c (.ref a)).run h = (.ok (.ref a), h) := by unfold hRawPre; rw [hpre]; rfl
      rw [hm_ok hrun]
      dsimp only
      rw [hm_ok hraw, hm_ok hrun]
      simp only [rawPre, hpre, except_bind_ok]
      rw [bind_alloc]
      have hF : DictAt J h (h.length + 1) h.length [] (h ++ [.dict []]) :=
        ⟨Retains.snoc _ _, by simp, [], by simp, .nil⟩
      refine Sim.bind (hMapLoop_sim hr hb (fun g hg => hf.child (by subst hg; exact .key)) (fun g hg => hf.child (.value hg)) hx
        (m := h.length + 1) (Nat.le_refl _) (Nat.lt_succ_self _) ph ser _ true hd hF) ?_
      rintro h1 b r hk1 ⟨rfl, hF1⟩
      refine Sim.bind (hMapRequired_sim hb (m := h.length + 1) (Nat.le_refl _) (Nat.lt_succ_self _) _ r.2
        (hf.here.1.2 c key value required rfl) hF1) ?_
      rintro h2 b r2 hk2 ⟨rfl, hF2⟩
      have hw := hF2.whole (Nat.le_refl _) (Nat.lt_succ_self _)
      cases hv2 : r2.2 with
      | true => exact Sim.ok hk2 hw
      | false =>
        simp only [Bool.false_eq_true, if_false]
        rw [bind_read (hx.mono (part_keeps hk2 fun _ h => h)), bind_read hw]
        exact Sim.error hk2
    · rw [hm_ok hrun]
      cases v <;> first
        | exact absurd rfl (hn _)
        | (simp only; rw [hInvalid_run hx]; exact Sim.error hk)

theorem hUnion_good (hr : Recs env E hrec rec K J) {h : Heap} (hb : Below K J h) {c : Common} {fields : List Field}
    (hf : Fits env E K J h (.union c fields)) {x : HVal} {v : Val}
    (hx : Depicts (part h K) x v) (ph : Phase) (ser : Bool) (anc : List Str) :
    Agrees J h ((hUnion env hrec c fields x ph ser anc).run h) (processUnion env rec c fields v ph ser anc) := by
  have hk := Retains.refl h
  unfold hUnion processUnion
  refine Sim.null rfl (fun _ => rfl) hx hk ?_
  intro b hb0
  cases b with
  | true => exact Sim.ok hk (.atom rfl)
  | false =>
    simp only [Bool.false_eq_true, if_false]
    have hs := hUnionLoop_sim hr hb hx ph ser (ancOr (.union c fields) anc) (fs := fields) (fun f hm g hg => hf.child (.union hm hg)) hk
    generalize hrun : (hUnionLoop env hrec x ph ser (ancOr (.union c fields) anc) fields).run h = o at hs
    generalize unionLoop env rec v ph ser (ancOr (.union c fields) anc) fields = r at hs
    obtain ⟨y, h1⟩ := o
    match y, r, hs with
    | .ok none, none, hs =>
      rw [hm_ok hrun]
      dsimp only
      rw [hInvalid_run (hx.mono (part_keeps hs fun _ h => h))]
      exact Sim.error hs
    | .ok (some y), some (.ok w), hs => rw [hm_ok hrun]; exact Sim.ok hs.1 hs.2
    | .error e, some (.error e'), hs => rw [hm_error hrun, hs.2]; exact Sim.error hs.1

theorem hStructure_good (hr : Recs env E hrec rec K J) {h : Heap} (hb : Below K J h) {c : Common} {defn : List (Str × Field)}
    {strict : Bool} {ko : List Str} (hf : Fits env E K J h (.structure c defn strict ko)) (partial' : Bool) {x : HVal} {v : Val}
    (hx : Depicts (part h K) x v) (ph : Phase) (ser : Bool) (anc : List Str) :
    Agrees J h ((hStructure env E hrec c defn strict ko partial' x ph ser anc).run h)
      (processStructure env rec c defn strict ko partial' v ph ser anc) := by
  have hk := Retains.refl h
  have hpre : c.pre = none := hf.here.1.1 c rfl
  unfold hStructure processStructure
  refine Sim.null rfl (fun _ => rfl) hx hk ?_
  intro b hb0
  cases b with
  | true => exact Sim.ok hk (.atom rfl)
  | false =>
    simp only [Bool.false_eq_true, if_false]
    rcases dictItems_run hx with ⟨vs, d, a, rfl, rfl, hcell, hrun, hd⟩ | ⟨hn, hrun⟩
    · have hraw : (hStructPre E (.structure c defn strict ko) c (.ref a) (ancOr (.structure c defn strict ko) anc)).run h =
          (.ok (.ref a), h) := by unfold hStructPre; rw [hpre]; rfl
      rw [hm_ok hrun]
      dsimp only
      rw [hm_ok hraw]
      simp only [structPre, hpre, except_bind_ok]
      exact hStructBody_good hr hb hx (fun n field hm g hg => hf.child (.member hm hg)) strict _ ph ser partial' _
    · rw [hm_ok hrun]
      cases v <;> first
        | exact absurd rfl (hn _)
        | (simp only; rw [hInvalid_run hx]; exact Sim.error hk)

theorem hPoly_good (hr : Recs env E hrec rec K J) {h : Heap} (hb : Below K J h) {c : Common} {disc : Field}
    {variants : List (Val × List (Str × Field))}
    {strict : Bool} {ko : List Str} (hf : Fits env E K J h (.poly c disc variants strict ko)) (partial' : Bool) {x : HVal} {v : Val}
    (hx : Depicts (part h K) x v) (ph : Phase) (ser : Bool) (anc : List Str) :
    Agrees J h ((hPoly env E hrec c disc variants strict ko partial' x ph ser anc).run h)
      (processPoly env rec c disc variants strict ko partial' v ph ser anc) := by
  have hk := Retains.refl h
  have hpre : c.pre = none := hf.here.1.1 c rfl
  unfold hPoly processPoly
  refine Sim.null rfl (fun _ => rfl) hx hk ?_
  intro b hb0
  cases b with
  | true => exact Sim.ok hk (.atom rfl)
  | false =>
    simp only [Bool.false_eq_true, if_false]
    rcases dictItems_run hx with ⟨vs, d, a, rfl, rfl, hcell, hrun, hd⟩ | ⟨hn, hrun⟩
    · have hraw : (hStructPre E (.poly c disc variants strict ko) c (.ref a) (ancOr (.poly c disc variants strict ko) anc)).run h =
          (.ok (.ref a), h) := by unfold hStructPre; rw [hpre]; rfl
      rw [hm_ok hrun]
      dsimp only
      rw [hm_ok hraw]
      simp only [structPre, hpre, except_bind_ok]
      generalize disc.name.getD [] = dname
      have hget : (getItem a (.atom (.str dname))).run h = (.ok (hdictGet h d (.atom (.str dname))), h) := by
        unfold getItem; dsimp only; rw [hcell]
      rw [hm_ok hget]
      have hm := hdictGet_reads (h := h) (P := K) (fun _ _ h => h) (k := .atom (.str dname)) (vk := .str dname)
        (.atom (A := part h K) rfl) hd
      have hraw : Depicts (part h K) ((hdictGet h d (.atom (.str dname))).getD (.atom .none))
          ((dictGet vs (.str dname)).getD .none) := by
        cases h2 : hdictGet h d (.atom (.str dname)) <;> cases h3 : dictGet vs (.str dname) <;> rw [h2, h3] at hm
        · exact .atom rfl
        · exact hm.elim
        · exact hm.elim
        · exact hm
      generalize (hdictGet h d (.atom (.str dname))).getD (.atom .none) = y at hraw
      generalize (dictGet vs (.str dname)).getD .none = w at hraw
      have hrest : w.isNone = false → Sim h ((hrec disc y ph ser (ancOr (.poly c disc variants strict ko) anc ++ ['.' :: dname]) >>= fun y =>
            read y >>= fun id =>
            if (!hashable id) = true then raise (.py .typeError)
            else match variantGet variants id with
              | none => raise (mkErr (.poly c disc variants strict ko) .validation (ancOr (.poly c disc variants strict ko) anc) id c!"unrecognized" [])
              | some defn =>
                if defn.isEmpty = true then
                  raise (mkErr (.poly c disc variants strict ko) .validation (ancOr (.poly c disc variants strict ko) anc) id c!"unrecognized" [])
                else if (!ko.isEmpty && id.truthy) = true then raise (.py .typeError)
                else hStructBody env E hrec (.poly c disc variants strict ko) strict (if ko.isEmpty = true then defn.map (·.1) else ko)
                  defn a ph ser partial' (ancOr (.poly c disc variants strict ko) anc) : HM HVal).run h)
          (rec disc w ph ser (ancOr (.poly c disc variants strict ko) anc ++ ['.' :: dname]) >>= fun id =>
            if (!hashable id) = true then .error (.py .typeError)
            else match variantGet variants id with
              | none => .error (mkErr (.poly c disc variants strict ko) .validation (ancOr (.poly c disc variants strict ko) anc) id c!"unrecognized" [])
              | some defn =>
                if defn.isEmpty = true then
                  .error (mkErr (.poly c disc variants strict ko) .validation (ancOr (.poly c disc variants strict ko) anc) id c!"unrecognized" [])
                else if (!ko.isEmpty && id.truthy) = true then .error (.py .typeError)
                else structBody env rec (.poly c disc variants strict ko) strict (if ko.isEmpty = true then defn.map (·.1) else ko)
                  defn vs ph ser partial' (ancOr (.poly c disc variants strict ko) anc))
          (fun h' y w => Depicts (part h' (since J h.length)) y w) := by
        intro _
        refine Sim.bind (Agrees.at hk (Nat.le_refl _) (hr.at hb hk (hf.child .disc) hraw ph ser _)) ?_
        rintro h1 z id hk1 ⟨_, hz⟩
        rw [bind_read hz]
        split
        · exact Sim.error hk1
        · cases hvg : variantGet variants id with
          | none => exact Sim.error hk1
          | some defn =>
            dsimp only
            split
            · exact Sim.error hk1
            · split
              · exact Sim.error hk1
              · obtain ⟨i, hi⟩ := variantGet_mem hvg
                exact (Agrees.at hk1 hk1.1 (hStructBody_good hr (hb.keeps hk1) (hx.mono (part_keeps hk1 fun _ h => h))
                  (fun n field hm g hg => Fits.keeps hk1 (hf.child (.variant hi hm hg))) strict _ ph ser partial' _)).mono
                  fun _ _ _ _ hq => hq.2
      cases hraw with
      | atom hat =>
        cases w <;> first
          | exact Sim.error hk
          | exact hrest rfl
      | list | tuple | dict => exact hrest rfl
    · rw [hm_ok hrun]
      cases v <;> first
        | exact absurd rfl (hn _)
        | (simp only; rw [hInvalid_run hx]; exact Sim.error hk)

theorem hProcess_good (hq : ∀ k x, E.take k x = pure ()) : ∀ n, Recs env E (hProcess env E n) (process env n) K J
  | 0 => fun g h x v ph ser anc _ _ _ _ => Sim.error (Retains.refl h)
  | n + 1 => by
    intro g h x v ph ser anc hf hK hJ hx
    have hr : Recs env E (hProcess env E n) (process env n) K J := hProcess_good hq n
    have hb : Below K J h := ⟨hK, hJ⟩
    cases g with
    | leaf c k => exact hLeaf_good hq hf.here hx ph ser anc
    | sequence c item mn mx u => exact hSequence_good hr hb hf hx ph ser anc
    | map c key value req => exact hMap_good hr hb hf hx ph ser anc
    | tuple c vs => exact hTuple_good hr hb hf hx ph ser anc
    | union c fs => exact hUnion_good hr hb hf hx ph ser anc
    | «structure» c defn s ko => exact hStructure_good hr hb hf false hx ph ser anc
    | poly c d vs s ko => exact hPoly_good hr hb hf false hx ph ser anc
    | undef s => exact Sim.error (Retains.refl h)

end Scheme
