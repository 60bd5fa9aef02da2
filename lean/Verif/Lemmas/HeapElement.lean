import Verif.Spec.HeapElement
import Verif.Lemmas.HeapInst
import Verif.Lemmas.HeapOwn
import Verif.Props.Conformance
import Verif.Props.Sharing
import Verif.Lemmas.Describe

/-! Elements on the heap correspond to those on values. -/

namespace Scheme

open HM

namespace HT

variable {env : Env} {E : HEnv} {o : Outer} {O : HOuter} {K K0 : Nat → Prop} {hB : Heap}

/-! ### Named objects -/

theorem DepictsP.mono {A B : Cells} (hle : A.le B) : ∀ {l vs}, DepictsP A l vs → DepictsP B l vs
  | _, _, .nil => .nil
  | _, _, .cons hx hr => .cons (hx.mono hle) (DepictsP.mono hle hr)

theorem DepictsP.lookup {A : Cells} (name : Str) : ∀ {l vs}, DepictsP A l vs → ODepicts A (l.lookup name) (vs.lookup name)
  | _, _, .nil => .none
  | _, _, .cons (name := s) hx hr => by
    simp only [List.lookup_cons]
    cases name == s
    · exact DepictsP.lookup name hr
    · exact .some hx

theorem DepictsV.mono {A B : Cells} (hle : A.le B) : ∀ {l vs}, DepictsV A l vs → DepictsV B l vs
  | _, _, .nil => .nil
  | _, _, .cons hx hr => .cons (DepictsP.mono hle hx) (DepictsV.mono hle hr)

theorem DepictsA.mono {A B : Cells} (hle : A.le B) {a b} (h : DepictsA A a b) : DepictsA B a b := by
  cases h with
  | none => exact .none
  | plain h => exact .plain (DepictsP.mono hle h)
  | poly h => exact .poly (DepictsV.mono hle h)
  | value h => exact .value (h.mono hle)

theorem DepictsV.find {A : Cells} (id : Val) : ∀ {l ws}, DepictsV A l ws →
    (∃ e vs, l.find? (fun e => pyEq id e.1) = some e ∧ dictGet ws id = some (.dict (vs.map fun e => (.str e.1, e.2))) ∧ DepictsP A e.2 vs) ∨
    l.find? (fun e => pyEq id e.1) = none ∧ dictGet ws id = none
  | _, _, .nil => .inr ⟨rfl, rfl⟩
  | _, _, .cons (i := i) (d := d) (vs := vs) (ws := ws) hx hr => by
    by_cases he : pyEq id i = true
    · refine .inl ⟨(i, d), vs, by simp [List.find?_cons, he], by unfold dictGet; simp [he], hx⟩
    · rcases DepictsV.find id hr with ⟨e, vs', h1, h2, h3⟩ | ⟨h1, h2⟩
      · refine .inl ⟨e, vs', ?_, ?_, h3⟩
        · simp only [List.find?_cons, he, h1]
        · unfold dictGet; simp [he, h2]
      · refine .inr ⟨?_, ?_⟩
        · simp only [List.find?_cons, he, h1]
        · unfold dictGet; simp [he, h2]

/-- `setattr(self, attr, params.get(attr, default))` for all attributes. -/
theorem setAttrs_cell {A : Cells} {params vparams} (hp : DepictsP A params vparams) : ∀ {d vs}, DepictsP A d vs →
    ∃ attrs, setAttrs vparams (vs.map fun e => (.str e.1, e.2)) = .ok attrs ∧
      DepictsD A (d.map fun e => (.atom (.str e.1), (params.lookup e.1).getD e.2)) (attrs.map fun x => (.str x.1, x.2))
  | _, _, .nil => ⟨[], rfl, .nil⟩
  | _, _, .cons (name := s) (x := x) (v := v) (vs := vs) hx hr => by
    obtain ⟨attrs, h1, h2⟩ := setAttrs_cell hp hr
    refine ⟨(s, (vparams.lookup s).getD v) :: attrs, ?_, ?_⟩
    · simp only [List.map_cons, setAttrs, h1]
      rfl
    · refine .cons (.atom rfl) ?_ h2
      have := DepictsP.lookup s hp
      dsimp only
      cases h3 : params.lookup s <;> cases h4 : vparams.lookup s <;> rw [h3, h4] at this
      · exact hx
      · nomatch this
      · nomatch this
      · cases this with | some h => exact h

/-- What making a `__dict__` amounts to. -/
def Makes (K : Nat → Prop) (h : Heap) (out : Except Exn Nat × Heap) (r : Except PyErr (List (Str × Val))) : Prop :=
  Sim h out (raising r) (fun h' a attrs => a = h.length ∧ Depicts (part h' (since K h.length)) (.ref a) (.dict (attrs.map fun x => (.str x.1, x.2))))

theorem alloc_makes {h : Heap} {params vparams d vs} (hp : DepictsP (part h K) params vparams) (hd : DepictsP (part h K) d vs) :
    Makes K h ((alloc (hAttrCell params d)).run h) (setAttrs vparams (vs.map fun e => (.str e.1, e.2))) := by
  obtain ⟨attrs, h1, h2⟩ := setAttrs_cell hp hd
  rw [h1]
  refine Sim.ok (Retains.snoc _ _) ⟨rfl, ?_⟩
  refine .dict (d := d.map fun e => (.atom (.str e.1), (params.lookup e.1).getD e.2)) (part_some.2 ⟨.inr (Nat.le_refl _), ?_⟩)
    (h2.mono (part_keeps (Retains.snoc _ _) fun _ hi => .inl hi))
  simp [hAttrCell]

/-- A class whose attributes depend on the identity has the discriminator's name as `__polymorphic_on__`. -/
def OnAgrees (c : ElCls) : Prop := ∀ on vs, c.attrs = some (.poly on vs) → c.polyOn = some on

theorem hElInit_makes {c : ElCls} (hon : OnAgrees c) {a : Option HElAttrs} {h : Heap} (ha : DepictsA (part h K) a c.attrs) {params vparams}
    (hp : DepictsP (part h K) params vparams) : Makes K h ((hElInit a params).run h) (c.init vparams) := by
  unfold hElInit ElCls.init
  have hself := DepictsP.lookup c!"self" hp
  have hs : (params.lookup c!"self").isSome = (vparams.lookup c!"self").isSome := by
    generalize params.lookup c!"self" = p at hself; generalize vparams.lookup c!"self" = q at hself
    cases hself <;> rfl
  rw [hs]
  split
  · exact Sim.error (Retains.refl _)
  · generalize hattrs : c.attrs = at' at ha
    cases ha with
    | none => exact Sim.error (Retains.refl _)
    | plain hd => exact alloc_makes hp hd
    | value hx => exact alloc_makes (d := [(_, _)]) (vs := [(_, _)]) hp (.cons hx .nil)
    | poly hv =>
      rename_i on l ws
      rw [hon on ws hattrs]
      dsimp only
      have hid := DepictsP.lookup on hp
      cases h3 : params.lookup on <;> cases h4 : vparams.lookup on <;> rw [h3, h4] at hid
      · exact Sim.error (Retains.refl _)
      · nomatch hid
      · nomatch hid
      · cases hid with
        | some hid =>
          rename_i y id
          dsimp only
          rw [bind_read hid]
          split
          · rcases DepictsV.find id hv with ⟨e, vs, h5, h6, h7⟩ | ⟨h5, h6⟩
            · rw [h5, h6]; exact alloc_makes hp h7
            · rw [h5, h6]; exact Sim.error (Retains.refl _)
          · exact Sim.error (Retains.refl _)

theorem hKeywords_sim {A : Cells} : ∀ {d vs}, DepictsD A d vs →
    (∃ p vp, hKeywords d = .ok p ∧ keywords vs = .ok vp ∧ DepictsP A p vp) ∨ hKeywords d = .error (.py .typeError) ∧ keywords vs = .error .typeError
  | _, _, .nil => .inl ⟨[], [], rfl, rfl, .nil⟩
  | _, _, .cons (vk := vk) hk hx hr => by
    have hrest := hKeywords_sim hr
    cases hk with
    | atom ha =>
      cases vk with
      | str name =>
        rcases hrest with ⟨p, vp, h1, h2, h3⟩ | ⟨h1, h2⟩
        · refine .inl ⟨(name, _) :: p, (name, _) :: vp, ?_, ?_, .cons hx h3⟩
          · unfold hKeywords; rw [h1]; rfl
          · unfold keywords; rw [h2]; rfl
        · refine .inr ⟨?_, ?_⟩
          · unfold hKeywords; rw [h1]; rfl
          · unfold keywords; rw [h2]; rfl
      | _ => exact .inr ⟨rfl, rfl⟩
    | list _ _ => exact .inr ⟨rfl, rfl⟩
    | tuple _ _ => exact .inr ⟨rfl, rfl⟩
    | dict _ _ => exact .inr ⟨rfl, rfl⟩

theorem hElChosen_sim {st : Elements} {cls : Nat} {c : ElCls} {h : Heap} {d vs} (hd : DepictsD (part h K) d vs) :
    (hElChosen st cls c d).run h = ((raising (st.chosen cls c vs)), h) := by
  unfold hElChosen Elements.chosen
  cases c.polyOn with
  | none => rfl
  | some on =>
    dsimp only
    have hget := hget_sim hd (.str on) rfl
    cases h1 : hdictGet h d (.atom (.str on)) <;> cases h2 : dictGet vs (.str on) <;> rw [h1, h2] at hget
    · rw [hm_error (e := .py .keyError) (h' := h) (by dsimp only; rw [h1])]; rfl
    · nomatch hget
    · nomatch hget
    · cases hget with
      | some hget =>
        rename_i y id
        rw [hm_ok (x := y) (h' := h) (by dsimp only; rw [h1])]
        rw [bind_read hget]
        dsimp only
        split <;> rfl

theorem setKey_none (k : Option Str) (attrs : List (Str × Val)) : setKey k .none attrs = attrs := by
  unfold setKey
  cases k <;> rfl

/-- What making an instance amounts to. -/
def MakesE (K : Nat → Prop) (h : Heap) (out : Except Exn (Nat × Nat) × Heap) (r : Except PyErr Elem) : Prop :=
  Sim h out (raising r) (fun h' p e => p.1 = e.cls ∧ p.2 = h.length ∧ ElemIn (part h' (since K h.length)) p.2 e)

theorem hElInstantiate_makes {st : Elements} (hon : ∀ j : Nat, OnAgrees ((st.classes[j]?).getD elementCls)) {H : Nat → Option HElAttrs}
    {cls : Nat} {h : Heap} (hH : ClassesIn (part h K) H st) {d vs} (hd : DepictsD (part h K) d vs) :
    MakesE K h ((hElInstantiate st H cls d).run h) (st.instantiate cls vs .none) := by
  unfold hElInstantiate Elements.instantiate
  have hc := hElChosen_sim (st := st) (cls := cls) (c := (st.classes[cls]?).getD elementCls) hd
  dsimp only
  cases h1 : st.chosen cls ((st.classes[cls]?).getD elementCls) vs with
  | error e => rw [h1] at hc; rw [hm_error hc]; exact Sim.error (Retains.refl _)
  | ok j =>
    rw [h1] at hc
    rw [hm_ok hc]
    rcases hKeywords_sim hd with ⟨p, vp, h2, h3, h4⟩ | ⟨h2, h3⟩
    · rw [h2, h3, bind_lift]
      have hm := hElInit_makes (hon j) (hH j) h4
      unfold Makes at hm
      have he : raising (do
          let j ← (.ok j : Except PyErr Nat)
          let params ← (.ok vp : Except PyErr (List (Str × Val)))
          let attrs ← ((st.classes[j]?).getD elementCls).init params
          pure (⟨j, setKey ((st.classes[cls]?).getD elementCls).keyAttr .none attrs⟩ : Elem)) =
          raising (((st.classes[j]?).getD elementCls).init vp) >>= fun attrs =>
            .ok ⟨j, setKey ((st.classes[cls]?).getD elementCls).keyAttr .none attrs⟩ := by
        show raising ((((st.classes[j]?).getD elementCls).init vp).bind _) = _
        cases ((st.classes[j]?).getD elementCls).init vp <;> rfl
      unfold MakesE
      rw [he]
      refine Sim.bind hm ?_
      intro h' a attrs hk hq
      refine Sim.ok hk ⟨rfl, hq.1, ?_⟩
      unfold ElemIn
      dsimp only
      rw [setKey_none]
      exact hq.2
    · rw [h2, h3]
      exact Sim.error (Retains.refl _)

/-! ### What the class statements make -/

theorem elDerive_on {mk : Nat → Except PyErr ElAttrs} {b c : ElCls} {j : Nat} {d : ElDecl} (hb : OnAgrees b)
    (h : elDerive mk b j d = .ok c) : OnAgrees c := by
  unfold elDerive at h
  dsimp only at h
  split at h
  · split at h
    · rename_i on hon
      split at h
      · nomatch h
      · split at h
        · cases h
          intro on' vs hv
          exact hon ▸ hb on' vs hv
        · nomatch h
    · nomatch h
  · split at h
    · cases h; exact hb
    · rename_i s hs
      cases hm : mk s with
      | error e => rw [hm] at h; nomatch h
      | ok attrs =>
        rw [hm] at h
        cases h
        intro on vs hv
        cases hv
        rfl

/-! ### Unserializing -/

theorem Sim.tag {α β : Type} {h : Heap} {out : Except Exn α × Heap} {r : Except Exn β} {Q : Heap → α → β → Prop} {D : β → Prop}
    (hs : Sim h out r Q) (hD : ∀ w, r = .ok w → D w) : Sim h out r (fun h' x w => D w ∧ Q h' x w) := by
  obtain ⟨hk, hm⟩ := hs
  refine ⟨hk, ?_⟩
  obtain ⟨x, h'⟩ := out
  cases x <;> cases r
  · exact hm
  · exact hm.elim
  · exact hm.elim
  · exact ⟨hD _ rfl, hm⟩

theorem lookup_pair {α : Type} {k : Str} {v : α} : ∀ {l : List (Str × α)}, l.lookup k = some v → (k, v) ∈ l
  | [], h => nomatch h
  | (k', v') :: l, h => by
    simp only [List.lookup_cons] at h
    split at h
    · rename_i he
      cases h
      rw [eq_of_beq he]
      exact .head _
    · exact .tail _ (lookup_pair h)

theorem lookup_nodup {α : Type} : ∀ {l : List (Str × α)}, (l.map (·.1)).Nodup → ∀ {e : Str × α}, e ∈ l → l.lookup e.1 = some e.2
  | [], _, _, he => nomatch he
  | (k, v) :: l, hn, e, he => by
    simp only [List.map_cons, List.nodup_cons] at hn
    simp only [List.lookup_cons]
    rcases List.mem_cons.1 he with h | h
    · subst h; simp
    · have : (e.1 == k) = false := by
        rw [beq_eq_false_iff_ne]
        intro hk
        exact hn.1 (hk ▸ List.mem_map.2 ⟨e, h, rfl⟩)
      rw [this]
      exact lookup_nodup hn.2 h

theorem conforms_keys {ph : Phase} {f : Field} {v : Val} (hp : Everywhere env PartFree f) (h : Conforms env ph f v) : RealKeys v := by
  have hmember : ∀ {d : List (Val × Val)}, DistinctKeys d → (∀ e ∈ d, ∃ name, e.1 = .str name ∧ RealKeys e.2) → RealKeys (.dict d) := by
    intro d hd he
    refine .dict hd (fun e h => ?_) (fun e h => ?_)
    · obtain ⟨name, h1, _⟩ := he e h; rw [h1]; exact .atom rfl
    · obtain ⟨_, _, h2⟩ := he e h; exact h2
  induction h with
  | null _ _ => exact .atom rfl
  | @leaf c k v hl _ _ =>
    have hpf := hp.here
    cases k with
    | any => exact hpf.elim
    | object => exact hpf.elim
    | definition _ => exact hpf.elim
    | error => exact hpf.elim
    | surrogate _ => exact hpf.elim
    | enumeration vals _ =>
      obtain ⟨m, hm, he⟩ := hl
      exact .atom (pyIn_atom hpf (by unfold pyIn; exact List.any_eq_true.2 ⟨m, hm, he⟩))
    | binary _ _ => obtain ⟨_, e, _⟩ := hl; rw [e]; exact .atom rfl
    | boolean => obtain ⟨_, e⟩ := hl; rw [e]; exact .atom rfl
    | date _ _ => rcases hl with ⟨_, e, _⟩ | ⟨_, e, _⟩ <;> rw [e] <;> exact .atom rfl
    | datetime _ _ _ => obtain ⟨_, e, _⟩ := hl; rw [e]; exact .atom rfl
    | decimal _ _ => obtain ⟨_, e, _⟩ := hl; rw [e]; exact .atom rfl
    | email _ _ _ _ => obtain ⟨_, e, _⟩ := hl; rw [e]; exact .atom rfl
    | float _ _ => obtain ⟨_, e, _⟩ := hl; rw [e]; exact .atom rfl
    | integer _ _ => obtain ⟨_, e, _⟩ := hl; rw [e]; exact .atom rfl
    | text _ _ _ _ => obtain ⟨_, e, _⟩ := hl; rw [e]; exact .atom rfl
    | time _ _ => obtain ⟨_, e, _⟩ := hl; rw [e]; exact .atom rfl
    | token _ => obtain ⟨_, _, _, e, _⟩ := hl; rw [e]; exact .atom rfl
    | uuid => obtain ⟨_, _, e, _⟩ := hl; rw [e]; exact .atom rfl
  | sequence _ _ hr _ ih =>
    refine .list fun x hx => ?_
    obtain ⟨g, hg⟩ := hr (List.ne_nil_of_mem hx)
    exact ih g hg x hx (hp.child (.item hg))
  | @tuple c fs l hlen hr _ ih =>
    refine .tuple fun x hx => ?_
    obtain ⟨i, hi, he⟩ := List.getElem_of_mem hx
    have hz : (fs[i]'(hlen ▸ hi), x) ∈ fs.zip l := by
      rw [← he]
      have : (fs.zip l)[i]'(by simp; omega) = (fs[i]'(hlen ▸ hi), l[i]) := by simp
      rw [← this]
      exact List.getElem_mem _
    obtain ⟨g, hg⟩ := hr _ hz
    exact ih _ hz g hg (hp.child (.tuple (List.of_mem_zip hz).1 hg))
  | @map c key value req d hd hk _ hr _ _ ihk ih =>
    refine .dict hd (fun e he => ?_) (fun e he => ?_)
    · cases key with
      | none => obtain ⟨s, e⟩ := hk rfl e he; rw [e]; exact .atom rfl
      | some kf => exact ihk kf rfl e he (hp.child .key)
    · obtain ⟨g, hg⟩ := hr (List.ne_nil_of_mem he)
      exact ih g hg e he (hp.child (.value hg))
  | union hm hr _ ih => exact ih (hp.child (.union hm hr))
  | «structure» hd hmem _ _ ih =>
    refine hmember hd fun e he => ?_
    obtain ⟨name, g, c, h1, _, h2⟩ := hmem e he
    refine ⟨name, h1, ih e he name g c h1 h2 ?_⟩
    obtain ⟨f, hf, hg, _⟩ := h2
    exact hp.child (.member (lookup_pair hf) hg)
  | poly hv _ _ hd hmem _ _ _ ih =>
    refine hmember hd fun e he => ?_
    obtain ⟨name, g, c, h1, _, h2⟩ := hmem e he
    refine ⟨name, h1, ih e he name g c h1 h2 ?_⟩
    obtain ⟨f, hf, hg, _⟩ := h2
    exact hp.child (.variant hv (lookup_pair hf) hg)

theorem inst_dict {rec : Inst} {c : Common} {defn : List (Str × Field)} {s : Bool} {ko : List Str} {v w : Val}
    (h : instBody env rec (.structure c defn s ko) v = .ok w) : ∃ d, w = .dict d := by
  unfold instBody at h
  dsimp only at h
  split at h
  · rename_i d
    cases hm : instMembers env rec defn d with
    | error e => rw [hm] at h; nomatch h
    | ok d' => rw [hm] at h; cases h; exact ⟨_, rfl⟩
  · nomatch h

theorem inst_dict_poly {rec : Inst} {c : Common} {disc : Field} {vs : List (Val × List (Str × Field))} {s : Bool} {ko : List Str} {v w : Val}
    (h : instBody env rec (.poly c disc vs s ko) v = .ok w) : ∃ d, w = .dict d := by
  unfold instBody at h
  dsimp only at h
  split at h
  · rename_i d
    split at h
    · nomatch h
    · rename_i id _
      split at h
      · cases hv : variantAt vs id with
        | error e => rw [hv] at h; nomatch h
        | ok defn =>
          rw [hv] at h
          change (instMembers env rec defn d).map Val.dict = _ at h
          cases hm : instMembers env rec defn d with
          | error e => rw [hm] at h; nomatch h
          | ok d' => rw [hm] at h; cases h; exact ⟨_, rfl⟩
      · cases hm : instIdentities vs d with
        | error e => rw [hm] at h; nomatch h
        | ok d' => rw [hm] at h; cases h; exact ⟨_, rfl⟩
  · nomatch h

theorem since_le {h h' h'' : Heap} (hk : Retains h h') {K : Nat → Prop} :
    (part h'' (since (fun i => since K h.length i ∧ i < h'.length) h'.length)).le (part h'' (since K h.length)) := by
  refine part_keeps (Retains.refl _) fun i hi => ?_
  rcases hi with ⟨hi, _⟩ | hi
  · exact hi
  · exact .inr (Nat.le_trans hk.1 hi)

theorem hElMake_makes (hO : Describes o O K0 hB) (hK0 : ∀ i, K0 i → K i) {h : Heap} (hK : ∀ i, K i → i < h.length) (hk : Retains hB h)
    {st : Elements} (hon : ∀ j : Nat, OnAgrees ((st.classes[j]?).getD elementCls)) {H : Nat → Option HElAttrs} (hH : ClassesIn (part h K) H st)
    {y : HVal} {w : Val} (hw : RealKeys w) (hn : w.isNone = false) (hy : Depicts (part h K) y w) (n cls : Nat) (schema : Field) :
    Sim h ((hElMake env O n st H cls schema y).run h) (st.instantiated env o n cls schema w)
      (fun h' p e => MadeElem (part h' (since K h.length)) h.length p e) := by
  have hbody := Sim.tag (D := fun u => (match schema with | .structure .. | .poly .. => ∃ d, u = .dict d | _ => True))
    (hInstBody_good (env := env) (fun g => hInstantiate_serves (env := env) hO n g) schema K h y w hK0 hK hk hw hy) (by
      intro u hu
      cases schema with
      | «structure» c defn s ko => exact inst_dict hu
      | poly c d vs s ko => exact inst_dict_poly hu
      | _ => trivial)
  have hinst : ∀ (h' : Heap) (z : HVal) (vs : List (Val × Val)), Retains h h' → Depicts (part h' (since K h.length)) z (.dict vs) →
      Sim h ((do
        match ← dictItems z with
        | some d => do
          let e ← hElInstantiate st H cls d
          return some e
        | none => raise (.py .typeError) : HM (Option (Nat × Nat))).run h') ((raising (st.instantiate cls vs .none)).map some)
        (fun h' p e => MadeElem (part h' (since K h.length)) h.length p e) := by
    intro h' z vs hk1 hz
    rcases dictItems_run hz with ⟨vs', d, a, he, hza, hd, hrun, hds⟩ | ⟨hno, _⟩
    · cases he
      rw [hm_ok hrun]
      dsimp only
      have hm := hElInstantiate_makes (cls := cls) (K := fun i => since K h.length i ∧ i < h'.length) hon
        (fun j => DepictsA.mono (part_keeps hk1 fun i hi => ⟨.inl hi, Nat.lt_of_lt_of_le (hK i hi) hk1.1⟩) (hH j)) (hds.mono part_bounded)
      rw [map_eq_bind]
      refine Sim.bind (Sim.base hk1 hm) ?_
      rintro h'' p e hk2 ⟨_, h1, h2, h3⟩
      refine Sim.ok hk2 ⟨h1, h2 ▸ hk1.1, ?_⟩
      unfold ElemIn at h3 ⊢
      exact h3.mono (since_le hk1)
    · exact absurd rfl (hno vs)
  have hval : ∀ (h' : Heap) (z : HVal) (u : Val) (name : Str), Retains h h' → Depicts (part h' (since K h.length)) z u →
      Sim h ((do
        let a ← hElInit (H cls) [(name, z)]
        return some (cls, a) : HM (Option (Nat × Nat))).run h') ((raising (st.instantiateValue cls name u .none)).map some)
        (fun h' p e => MadeElem (part h' (since K h.length)) h.length p e) := by
    intro h' z u name hk1 hz
    have hm := hElInit_makes (K := fun i => since K h.length i ∧ i < h'.length) (hon cls)
      (DepictsA.mono (part_keeps hk1 fun i hi => ⟨.inl hi, Nat.lt_of_lt_of_le (hK i hi) hk1.1⟩) (hH cls))
      (.cons (name := name) (hz.mono part_bounded) .nil)
    have he : (raising (st.instantiateValue cls name u .none)).map some =
        raising (((st.classes[cls]?).getD elementCls).init [(name, u)]) >>= fun attrs =>
          .ok (some ⟨cls, setKey ((st.classes[cls]?).getD elementCls).keyAttr .none attrs⟩) := by
      unfold Elements.instantiateValue
      show (raising ((((st.classes[cls]?).getD elementCls).init [(name, u)]).bind _)).map some = _
      cases ((st.classes[cls]?).getD elementCls).init [(name, u)] <;> rfl
    rw [he]
    refine Sim.bind (Sim.base hk1 hm) ?_
    rintro h'' a attrs hk2 ⟨_, h1, h2⟩
    refine Sim.ok hk2 ⟨rfl, h1 ▸ hk1.1, ?_⟩
    unfold ElemIn
    dsimp only
    rw [setKey_none]
    exact h2.mono (since_le hk1)
  unfold hElMake Elements.instantiated
  rw [if_neg (by rw [hn]; decide)]
  refine Sim.bind hbody ?_
  intro h' z u hk1 ⟨hd, hz⟩
  cases schema with
  | «structure» c defn s ko => obtain ⟨d, e⟩ := hd; subst e; exact hinst h' z d hk1 hz
  | poly c disc vs s ko => obtain ⟨d, e⟩ := hd; subst e; exact hinst h' z d hk1 hz
  | leaf c k => exact hval h' z u _ hk1 hz
  | sequence c i mn mx q => exact hval h' z u _ hk1 hz
  | map c k v r => exact hval h' z u _ hk1 hz
  | tuple c vs => exact hval h' z u _ hk1 hz
  | union c fs => exact hval h' z u _ hk1 hz
  | undef s => exact hval h' z u _ hk1 hz

theorem hElUnserialize_makes (hz : ZoneLaw env) {h : Heap} (hO : Describes o O K h) (hK : ∀ i, K i → i < h.length)
    {st : Elements} (hon : ∀ j : Nat, OnAgrees ((st.classes[j]?).getD elementCls)) {H : Nat → Option HElAttrs} (hH : ClassesIn (part h K) H st)
    {schema : Field} (hf : Everywhere env Ungrouped schema) (hp : Everywhere env PartFree schema) (hd : DefaultsIn env E h.cells schema)
    {x : HVal} {v : Val} (hx : Depicts h.cells x v) (n cls : Nat) :
    Sim h ((hElUnserialize env E O n st H cls schema x).run h) (st.unserialize env o n cls schema v)
      (fun h' p e => MadeElem (part h' (since K h.length)) h.length p e) := by
  have hs : Spared env schema .inbound true := .inr (.inr fun g hg => (hp g hg).undescribed)
  unfold hElUnserialize Elements.unserialize
  rw [hProcess_quiet n schema hs]
  have hg : Sim h _ _ _ := hProcess_good (env := env) (E := E.quiet) (fun _ _ => rfl) (K := (· < h.length)) (J := fun _ => False) n schema h x v .inbound true []
    (fun g hg => ⟨hf g hg, by rw [part_all]; exact hd g hg, .inr (hp g hg)⟩) (fun _ h => h) (fun _ h => h.elim)
    (by rw [part_all]; exact hx)
  refine Sim.bind (Sim.tag hg fun w hw => conforms_keys hp (C01_conforms env hz n schema v w .inbound true [] (.inr rfl) hw)) ?_
  intro h' y w hk ⟨hw, hy⟩
  cases hn : w.isNone with
  | true =>
    have : w = .none := by cases w <;> first | rfl | nomatch hn
    subst this
    cases hy
    exact Sim.ok hk trivial
  | false =>
    have hm := hElMake_makes (env := env) (K := fun i => since K h.length i ∧ i < h'.length) hO
      (fun i hi => ⟨.inl hi, Nat.lt_of_lt_of_le (hK i hi) hk.1⟩) (fun i hi => hi.2) hk hon
      (fun j => DepictsA.mono (part_keeps hk fun i hi => ⟨.inl hi, Nat.lt_of_lt_of_le (hK i hi) hk.1⟩) (hH j)) hw hn
      ((hy.mono (part_keeps (Retains.refl _) fun i hi => hi.imp False.elim id)).mono part_bounded) n cls schema
    have hmatch : (match y with | .atom .none => pure none | y => hElMake env O n st H cls schema y : HM _) =
        hElMake env O n st H cls schema y := by
      cases hy with
      | atom ha => cases w <;> first | rfl | nomatch hn
      | list _ _ => rfl
      | tuple _ _ => rfl
      | dict _ _ => rfl
    show Sim h ((match y with | .atom .none => pure none | y => hElMake env O n st H cls schema y : HM _).run h') _ _
    rw [hmatch]
    refine (Sim.base hk hm).mono ?_
    rintro h'' p e _ ⟨_, hme⟩
    cases p <;> cases e
    · trivial
    · exact hme
    · exact hme
    · exact ⟨hme.1, Nat.le_trans hk.1 hme.2.1, hme.2.2.mono (since_le hk)⟩

/-! ### Serializing -/

theorem hElExtract_agrees {h : Heap} (hO : Describes o O K h) (hK : ∀ i, K i → i < h.length) {schema : Field}
    (hf : Everywhere env Declarable schema) {a : Nat} {e : Elem} (hr : RealKeys (.dict e.extract)) (he : ElemIn (part h K) a e) (n : Nat) :
    Agrees K h ((hElExtract env o O n schema a).run h) (e.extracted env o n schema) := by
  have hbody : ∀ x v, RealKeys v → Depicts (part h K) x v → Agrees K h ((hExtractBody env O true (hExtract env o O true [] n) schema x).run h)
      (extractBody env o true (extract env o true [] n) schema v) := fun x v hv hx =>
    hExtractBody_serves hO (fun g hg => hExtract_serves hO n g hg) hf K h x v (fun _ h => h) hK (Retains.refl h) hv hx
  have hval : ∀ name, Agrees K h ((do
      match ← getItem a (.atom (.str name)) with
      | none => raise .cannotExtract
      | some y => hUnlessNone y (hExtractBody env O true (hExtract env o O true [] n) schema y) : HM HVal).run h)
      (match e.extractValue name with
      | .ok v => if v.isNone then .ok v else extractBody env o true (extract env o true [] n) schema v
      | .error _ => .error .cannotExtract) := by
    intro name
    obtain ⟨d, hc, hd⟩ : ∃ d, h[a]? = some (.dict d) ∧ DepictsD (part h K) d (e.attrs.map fun x => (.str x.1, x.2)) := by
      cases he with
      | dict hc hd => exact ⟨_, (part_some.1 hc).2, hd⟩
    have hget := hget_sim hd (.str name) rfl
    rw [dictGet_desc e.attrs name] at hget
    have hrun : (getItem a (.atom (.str name))).run h = (.ok (hdictGet h d (.atom (.str name))), h) := by
      unfold getItem; dsimp only; rw [hc]
    rw [hm_ok hrun]
    unfold Elem.extractValue
    cases h1 : hdictGet h d (.atom (.str name)) <;> cases h2 : e.attrs.lookup name <;> rw [h1, h2] at hget
    · exact Sim.error (Retains.refl _)
    · nomatch hget
    · nomatch hget
    · rename_i y v
      cases hget with
      | some hy =>
        have hv : RealKeys v := (RealKeys.of_dict hr).2.2 (.str name, v) (List.mem_map.2 ⟨(name, v), lookup_pair h2, rfl⟩)
        have := unlessNone_good hy (hbody y v hv hy)
        dsimp only
        have hn : (if v.isNone then .ok v else extractBody env o true (extract env o true [] n) schema v : Except Exn Val) =
            if v.isNone then .ok .none else extractBody env o true (extract env o true [] n) schema v := by
          cases v <;> rfl
        rw [hn]
        exact this
  cases schema with
  | «structure» c defn s ko => exact hbody _ _ hr he
  | poly c disc vs s ko => exact hbody _ _ hr he
  | leaf c k => exact hval _
  | sequence c i mn mx q => exact hval _
  | map c k v r => exact hval _
  | tuple c vs => exact hval _
  | union c fs => exact hval _
  | undef s => exact hval _

/-- `J`: the old cells that the result may have. -/
theorem hElSerialize_agrees {h : Heap} (hO : Describes o O K h) (hK : ∀ i, K i → i < h.length) {schema : Field}
    (hf : Everywhere env Declarable schema) (hu : Everywhere env Ungrouped schema) (hd : DefaultsIn env E (part h K) schema)
    {a : Nat} {e : Elem} (hr : RealKeys (.dict e.extract)) (he : ElemIn (part h K) a e) (n : Nat) {J : Nat → Prop}
    (hJ : (∀ i, K i → J i) ∧ (∀ i, J i → i < h.length) ∨ Everywhere env PartFree schema ∧ ∀ i, ¬ J i) :
    Agrees J h ((hElSerialize env E o O n schema a).run h) (e.serialize env o n schema) := by
  unfold hElSerialize Elem.serialize
  refine Sim.bind (hElExtract_agrees hO hK hf hr he n) ?_
  intro h' y w hk hy
  rw [hProcess_quiet n schema (.inr (.inl rfl))]
  have hKb : (part h K).le (part h' fun i => since K h.length i ∧ i < h'.length) :=
    part_keeps hk fun i hi => ⟨.inl hi, Nat.lt_of_lt_of_le (hK i hi) hk.1⟩
  rcases hJ with ⟨hJ, hJb⟩ | ⟨hp, hJ⟩
  · have hg := hProcess_good (env := env) (E := E.quiet) (fun _ _ => rfl) (K := fun i => since K h.length i ∧ i < h'.length)
      (J := fun i => since J h.length i ∧ i < h'.length) n schema h' y w .outbound true []
      (fun g hg => ⟨hu g hg, fun c hc => (hd g hg c hc).mono hKb, .inl fun i hi => ⟨hi.1.imp (hJ i) id, hi.2⟩⟩) (fun _ h => h.2) (fun _ h => h.2)
      (hy.mono part_bounded)
    exact agrees_then hk hg
  · have hg := hProcess_good (env := env) (E := E.quiet) (fun _ _ => rfl) (K := fun i => since K h.length i ∧ i < h'.length)
      (J := fun _ => False) n schema h' y w .outbound true []
      (fun g hg => ⟨hu g hg, fun c hc => (hd g hg c hc).mono hKb, .inr (hp g hg)⟩) (fun _ h => h.2) (fun _ h => h.elim)
      (hy.mono part_bounded)
    refine (Sim.base hk hg).mono ?_
    rintro h'' z u _ ⟨_, hz⟩
    refine hz.mono (part_keeps (Retains.refl _) fun i hi => ?_)
    rcases hi with hi | hi
    · exact hi.elim
    · exact .inr (Nat.le_trans hk.1 hi)

/-! ### The class -/

/-- The defaults and constants of a field are as required. -/
def Holds (env : Env) (E : HEnv) (A : Cells) (f : Field) : Prop :=
  ∀ g c, resolve env f = some g → g.common? = some c → Depicts A (E.dflt c) c.default ∧ c.constant.isAtom = true

theorem hDefaultOf_sim {A : Cells} {f : Field} (h : Holds env E A f) :
    (∃ x v, hDefaultOf env E f = .ok x ∧ defaultOf env f = .ok v ∧ Depicts A x v) ∨
    ∃ e, hDefaultOf env E f = .error e ∧ defaultOf env f = .error e := by
  unfold hDefaultOf defaultOf
  cases hr : (resolve env f).bind (·.common?) with
  | none => exact .inr ⟨_, rfl, rfl⟩
  | some c =>
    obtain ⟨g, hg, hc⟩ := Option.bind_eq_some_iff.1 hr
    obtain ⟨h1, h2⟩ := h g c hg hc
    refine .inl ⟨_, _, rfl, rfl, ?_⟩
    split
    · exact .atom h2
    · exact h1

theorem hGenerateValues_sim {A : Cells} : ∀ {defn : List (Str × Field)}, (∀ e ∈ defn, Holds env E A e.2) →
    (∃ d vs, hGenerateValues env E defn = .ok d ∧ generateValues env false defn = .ok (vs.map fun e => (.str e.1, e.2)) ∧ DepictsP A d vs) ∨
    ∃ e, hGenerateValues env E defn = .error e ∧ generateValues env false defn = .error e
  | [], _ => .inl ⟨[], [], rfl, rfl, .nil⟩
  | (name, f) :: r, h => by
    unfold hGenerateValues generateValues
    rcases hDefaultOf_sim (h _ (.head _)) with ⟨x, v, h1, h2, h3⟩ | ⟨e, h1, h2⟩
    · rw [h1, h2]
      rcases hGenerateValues_sim (fun e he => h e (.tail _ he)) with ⟨d, vs, h4, h5, h6⟩ | ⟨e, h4, h5⟩
      · rw [h4, h5]; exact .inl ⟨(name, x) :: d, (name, v) :: vs, rfl, rfl, .cons h3 h6⟩
      · rw [h4, h5]; exact .inr ⟨e, rfl, rfl⟩
    · rw [h1, h2]; exact .inr ⟨e, rfl, rfl⟩

theorem hGenerateVariants_sim {A : Cells} : ∀ {vs : List (Val × List (Str × Field))}, (∀ v ∈ vs, ∀ e ∈ v.2, Holds env E A e.2) →
    (∃ d ws, hGenerateVariants env E vs = .ok d ∧ generateVariants env false vs = .ok ws ∧ DepictsV A d ws) ∨
    ∃ e, hGenerateVariants env E vs = .error e ∧ generateVariants env false vs = .error e
  | [], _ => .inl ⟨[], [], rfl, rfl, .nil⟩
  | (i, defn) :: r, h => by
    unfold hGenerateVariants generateVariants
    rcases hGenerateValues_sim (h _ (.head _)) with ⟨d, vs, h1, h2, h3⟩ | ⟨e, h1, h2⟩
    · rw [h1, h2]
      rcases hGenerateVariants_sim (fun v hv => h v (.tail _ hv)) with ⟨d', ws, h4, h5, h6⟩ | ⟨e, h4, h5⟩
      · rw [h4, h5]; exact .inl ⟨(i, d) :: d', (i, _) :: ws, rfl, rfl, .cons h3 h6⟩
      · rw [h4, h5]; exact .inr ⟨e, rfl, rfl⟩
    · rw [h1, h2]; exact .inr ⟨e, rfl, rfl⟩

theorem hElAttrs_sim {A : Cells} {f : Field} (hd : DefaultsIn env E A f) (hc : Everywhere env AtomConst f) :
    (∃ a b, hElAttrs env E f = .ok a ∧ elAttrs env f = .ok b ∧ DepictsA A (some a) (some b)) ∨
    ∃ e, hElAttrs env E f = .error e ∧ elAttrs env f = .error e := by
  have hchild : ∀ {p : Field}, (∀ g, resolve env p = some g → Child env f g) → Holds env E A p :=
    fun hp g c hg hcm => ⟨hd.child (hp g hg) |>.here c hcm, hc.child (hp g hg) |>.here c hcm⟩
  have hval : ∀ {c : Common}, f.common? = some c →
      (∃ a b, (match f.name with
        | some s => if s.isEmpty then .error .valueError else .ok (.value s ((f.common?.map E.dflt).getD (.atom .none)))
        | none => .error .valueError : Except PyErr HElAttrs) = .ok a ∧
        (match f.name with
        | some s => if s.isEmpty then .error .valueError else .ok (.value s ((f.common?.map (·.default)).getD .none))
        | none => .error .valueError : Except PyErr ElAttrs) = .ok b ∧ DepictsA A (some a) (some b)) ∨
      ∃ e, (match f.name with
        | some s => if s.isEmpty then .error .valueError else .ok (.value s ((f.common?.map E.dflt).getD (.atom .none)))
        | none => .error .valueError : Except PyErr HElAttrs) = .error e ∧
        (match f.name with
        | some s => if s.isEmpty then .error .valueError else .ok (.value s ((f.common?.map (·.default)).getD .none))
        | none => .error .valueError : Except PyErr ElAttrs) = .error e := by
    intro c hcm
    cases f.name with
    | none => exact .inr ⟨_, rfl, rfl⟩
    | some s =>
      dsimp only
      by_cases hs : s.isEmpty = true
      · rw [if_pos hs, if_pos hs]; exact .inr ⟨_, rfl, rfl⟩
      · rw [if_neg hs, if_neg hs, hcm]
        exact .inl ⟨_, _, rfl, rfl, .value (hd.here c hcm)⟩
  cases f with
  | «structure» c defn s ko =>
    unfold hElAttrs elAttrs generateDefaults
    dsimp only
    rw [if_pos (by rfl)]
    rcases hGenerateValues_sim (env := env) (E := E) (A := A) (defn := defn) (fun e he => hchild fun g hg => .member (n := e.1) he hg) with ⟨d, vs, h1, h2, h3⟩ | ⟨e, h1, h2⟩
    · rw [h1, h2]; exact .inl ⟨_, _, rfl, rfl, .plain h3⟩
    · rw [h1, h2]; exact .inr ⟨_, rfl, rfl⟩
  | poly c disc vs s ko =>
    unfold hElAttrs elAttrs generateDefaults
    dsimp only
    rw [if_pos (by rfl)]
    rcases hGenerateVariants_sim (env := env) (E := E) (A := A) (vs := vs) (fun v hv e he => hchild fun g hg => .variant (i := v.1) (defn := v.2) (n := e.1) hv he hg) with
      ⟨d, ws, h1, h2, h3⟩ | ⟨e, h1, h2⟩
    · rw [h1, h2]; exact .inl ⟨_, _, rfl, rfl, .poly h3⟩
    · rw [h1, h2]; exact .inr ⟨_, rfl, rfl⟩
  | undef s => exact .inr ⟨_, rfl, rfl⟩
  | leaf c k => exact hval rfl
  | sequence c i mn mx q => exact hval rfl
  | map c k v r => exact hval rfl
  | tuple c vs => exact hval rfl
  | union c fs => exact hval rfl

/-- The attributes of a class come from a schema. -/
def FromSchema (mk : Nat → Except PyErr ElAttrs) (c : ElCls) : Prop := ∀ a, c.attrs = some a → ∃ s, mk s = .ok a

theorem elDerive_from {mk : Nat → Except PyErr ElAttrs} {b c : ElCls} {j : Nat} {d : ElDecl} (hb : FromSchema mk b)
    (h : elDerive mk b j d = .ok c) : FromSchema mk c := by
  unfold elDerive at h
  dsimp only at h
  split at h
  · split at h
    · split at h
      · nomatch h
      · split at h
        · cases h; exact hb
        · nomatch h
    · nomatch h
  · split at h
    · cases h; exact hb
    · rename_i s hs
      cases hm : mk s with
      | error e => rw [hm] at h; nomatch h
      | ok attrs =>
        rw [hm] at h
        cases h
        intro a ha
        cases ha
        exact ⟨s, hm⟩

/-- What holds of Element and is kept by deriving holds of all classes. -/
theorem run_all {mk : Nat → Except PyErr ElAttrs} {P : ElCls → Prop} (he : P elementCls)
    (hd : ∀ b c j d, P b → elDerive mk b j d = .ok c → P c) : ∀ (decls : List ElDecl) {st st' : Elements},
    (∀ j : Nat, P ((st.classes[j]?).getD elementCls)) → st.run mk decls = .ok st' → ∀ j : Nat, P ((st'.classes[j]?).getD elementCls)
  | [], _, _, hst, h => by cases h; exact hst
  | d :: r, st, st', hst, h => by
    unfold Elements.run at h
    cases hdef : st.define mk d with
    | error e => rw [hdef] at h; nomatch h
    | ok st1 =>
      rw [hdef] at h
      refine run_all he hd r ?_ h
      unfold Elements.define at hdef
      dsimp only at hdef
      cases hc : elDerive mk (st.base d.base) st.classes.length d with
      | error e => rw [hc] at hdef; nomatch hdef
      | ok c =>
        have hb : P (st.base d.base) := by
          unfold Elements.base
          split
          · exact hst _
          · exact he
        have hcc := hd _ _ _ _ hb hc
        rw [hc] at hdef
        have hcl : st1.classes = st.classes ++ [c] := by
          change (if c.identity.truthy then _ else _) = _ at hdef
          split at hdef
          · cases hdef; rfl
          · split at hdef <;> cases hdef <;> rfl
        intro j
        rw [hcl, List.getElem?_append]
        split
        · exact hst j
        · cases hj : [c][j - st.classes.length]? with
          | none => exact he
          | some c' =>
            have := List.mem_of_getElem? hj
            simp only [List.mem_singleton] at this
            subst this
            exact hcc

theorem init_none (j : Nat) : (Elements.init.classes[j]?).getD elementCls = elementCls := by
  unfold Elements.init; simp

theorem run_on {mk : Nat → Except PyErr ElAttrs} {decls : List ElDecl} {st : Elements} (h : Elements.init.run mk decls = .ok st) :
    ∀ j : Nat, OnAgrees ((st.classes[j]?).getD elementCls) :=
  run_all (fun _ _ h => nomatch h) (fun _ _ _ _ hb hd => elDerive_on hb hd) decls (fun j => by rw [init_none]; exact fun _ _ h => nomatch h) h

theorem run_from {mk : Nat → Except PyErr ElAttrs} {decls : List ElDecl} {st : Elements} (h : Elements.init.run mk decls = .ok st) :
    ∀ j : Nat, FromSchema mk ((st.classes[j]?).getD elementCls) :=
  run_all (fun _ h => nomatch h) (fun _ _ _ _ hb hd => elDerive_from hb hd) decls (fun j => by rw [init_none]; exact fun _ h => nomatch h) h

end HT
end Scheme
