import Verif.Lemmas.HeapElement

/-! Unserializing an element of a structure: defaults are copied. -/

namespace Scheme

open HM

namespace HT

variable {env : Env} {E : HEnv} {o : Outer} {O : HOuter} {K K0 : Nat → Prop} {hB : Heap}

/-- Objects are these values, except for names of which `Q` holds. -/
inductive DepictsQ (A : Cells) (Q : Str → Prop) : List (Str × HVal) → List (Str × Val) → Prop
  | nil : DepictsQ A Q [] []
  | cons {name x v l vs} : (Depicts A x v ∨ Q name) → DepictsQ A Q l vs → DepictsQ A Q ((name, x) :: l) ((name, v) :: vs)

theorem setAttrs_cell_q {A : Cells} {Q : Str → Prop} {params vparams} (hp : DepictsP A params vparams) (hQ : ∀ s, Q s → params.lookup s ≠ none) :
    ∀ {d vs}, DepictsQ A Q d vs → ∃ attrs, setAttrs vparams (vs.map fun e => (.str e.1, e.2)) = .ok attrs ∧
      DepictsD A (d.map fun e => (.atom (.str e.1), (params.lookup e.1).getD e.2)) (attrs.map fun x => (.str x.1, x.2))
  | _, _, .nil => ⟨[], rfl, .nil⟩
  | _, _, .cons (name := s) (x := x) (v := v) (vs := vs) hx hr => by
    obtain ⟨attrs, h1, h2⟩ := setAttrs_cell_q hp hQ hr
    refine ⟨(s, (vparams.lookup s).getD v) :: attrs, ?_, ?_⟩
    · simp only [List.map_cons, setAttrs, h1]
      rfl
    · refine .cons (.atom rfl) ?_ h2
      have := DepictsP.lookup s hp
      dsimp only
      cases h3 : params.lookup s <;> cases h4 : vparams.lookup s <;> rw [h3, h4] at this
      · rcases hx with hx | hx
        · exact hx
        · exact absurd h3 (hQ s hx)
      · nomatch this
      · nomatch this
      · cases this with | some h => exact h

theorem keywords_has {A : Cells} {name : Str} : ∀ {d vs}, DepictsD A d vs → (∃ e ∈ vs, e.1 = .str name) → ∀ {p}, hKeywords d = .ok p →
    p.lookup name ≠ none
  | _, _, .nil, h, _, _ => by obtain ⟨_, h, _⟩ := h; nomatch h
  | _, _, .cons (vk := vk) hk hx hr, h, p, hp => by
    cases hk with
    | atom ha =>
      cases vk with
      | str s =>
        unfold hKeywords at hp
        rename_i x v d vs
        cases hr' : hKeywords d with
        | error e => rw [hr'] at hp; nomatch hp
        | ok p' =>
          rw [hr'] at hp
          cases hp
          simp only [List.lookup_cons]
          split
          · exact fun h => nomatch h
          · rename_i hne
            obtain ⟨e, he, hn⟩ := h
            rcases List.mem_cons.1 he with h1 | h1
            · rw [h1] at hn
              cases hn
              simp at hne
            · exact keywords_has hr ⟨e, h1, hn⟩ hr'
      | _ => nomatch hp
    | list _ _ => nomatch hp
    | tuple _ _ => nomatch hp
    | dict _ _ => nomatch hp

theorem hElInstantiate_plain {st : Elements} {H : Nat → Option HElAttrs} {cls : Nat} (hpoly : ((st.classes[cls]?).getD elementCls).polyOn = none)
    {Q : Str → Prop} {h : Heap} {d0 : List (Str × HVal)} {vs0 : List (Str × Val)} (hHc : H cls = some (.plain d0))
    (hcl : ((st.classes[cls]?).getD elementCls).attrs = some (.plain (vs0.map fun e => (.str e.1, e.2))))
    (hq : DepictsQ (part h K) Q d0 vs0) {d vs} (hd : DepictsD (part h K) d vs) (hQ : ∀ s, Q s → ∃ e ∈ vs, e.1 = .str s) :
    MakesE K h ((hElInstantiate st H cls d).run h) (st.instantiate cls vs .none) := by
  have hc1 : (hElChosen st cls ((st.classes[cls]?).getD elementCls) d).run h = (.ok cls, h) := by
    unfold hElChosen; rw [hpoly]; rfl
  have hc2 : st.chosen cls ((st.classes[cls]?).getD elementCls) vs = .ok cls := by unfold Elements.chosen; rw [hpoly]
  unfold hElInstantiate Elements.instantiate MakesE
  dsimp only
  rw [hm_ok hc1, hc2]
  rcases hKeywords_sim hd with ⟨p, vp, h2, h3, h4⟩ | ⟨h2, h3⟩
  · rw [h2, h3, bind_lift]
    have he : raising (do
        let j ← (.ok cls : Except PyErr Nat)
        let params ← (.ok vp : Except PyErr (List (Str × Val)))
        let attrs ← ((st.classes[j]?).getD elementCls).init params
        pure (⟨j, setKey ((st.classes[cls]?).getD elementCls).keyAttr .none attrs⟩ : Elem)) =
        raising (((st.classes[cls]?).getD elementCls).init vp) >>= fun attrs =>
          .ok ⟨cls, setKey ((st.classes[cls]?).getD elementCls).keyAttr .none attrs⟩ := by
      show raising ((((st.classes[cls]?).getD elementCls).init vp).bind _) = _
      cases ((st.classes[cls]?).getD elementCls).init vp <;> rfl
    rw [he]
    have hm : Makes K h ((hElInit (H cls) p).run h) (((st.classes[cls]?).getD elementCls).init vp) := by
      unfold hElInit ElCls.init
      have hself := DepictsP.lookup c!"self" h4
      have hs : (p.lookup c!"self").isSome = (vp.lookup c!"self").isSome := by
        generalize p.lookup c!"self" = x at hself; generalize vp.lookup c!"self" = y at hself
        cases hself <;> rfl
      rw [hs, hHc, hcl]
      split
      · exact Sim.error (Retains.refl _)
      · obtain ⟨attrs, h5, h6⟩ := setAttrs_cell_q h4 (fun s hs => keywords_has hd (hQ s hs) h2) hq
        dsimp only
        unfold Makes
        rw [h5]
        refine Sim.ok (Retains.snoc _ _) ⟨rfl, ?_⟩
        refine .dict (d := d0.map fun e => (.atom (.str e.1), (p.lookup e.1).getD e.2)) (part_some.2 ⟨.inr (Nat.le_refl _), ?_⟩)
          (h6.mono (part_keeps (Retains.snoc _ _) fun _ hi => .inl hi))
        simp [hAttrCell]
    refine Sim.bind hm ?_
    intro h' a attrs hk hq
    refine Sim.ok hk ⟨rfl, hq.1, ?_⟩
    unfold ElemIn
    dsimp only
    rw [setKey_none]
    exact hq.2
  · rw [h2, h3]
    exact Sim.error (Retains.refl _)

theorem DepictsQ.mono {A B : Cells} {Q : Str → Prop} (hle : A.le B) : ∀ {l vs}, DepictsQ A Q l vs → DepictsQ B Q l vs
  | _, _, .nil => .nil
  | _, _, .cons hx hr => .cons (hx.imp (·.mono hle) id) (DepictsQ.mono hle hr)

theorem hGenerateValues_q {A : Cells} {Q : Str → Prop} : ∀ {defn : List (Str × Field)} {d ws},
    (∀ e ∈ defn, ∀ g c, resolve env e.2 = some g → g.common? = some c → c.constant.isAtom = true ∧ (c.default ≠ .none → Q e.1)) →
    hGenerateValues env E defn = .ok d → generateValues env false defn = .ok ws →
    ∃ vs, ws = vs.map (fun e => (.str e.1, e.2)) ∧ DepictsQ A Q d vs
  | [], _, _, _, h1, h2 => by cases h1; cases h2; exact ⟨[], rfl, .nil⟩
  | (name, f) :: r, d, ws, h, h1, h2 => by
    unfold hGenerateValues at h1
    unfold generateValues at h2
    unfold hDefaultOf at h1
    unfold defaultOf at h2
    cases hr : (resolve env f).bind (·.common?) with
    | none => rw [hr] at h1; nomatch h1
    | some c =>
      obtain ⟨g, hg, hc⟩ := Option.bind_eq_some_iff.1 hr
      obtain ⟨ha, hq⟩ := h _ (.head _) g c hg hc
      rw [hr] at h1 h2
      cases h3 : hGenerateValues env E r with
      | error e => rw [h3] at h1; nomatch h1
      | ok d' =>
        cases h4 : generateValues env false r with
        | error e => rw [h4] at h2; nomatch h2
        | ok ws' =>
          rw [h3] at h1; rw [h4] at h2
          cases h1; cases h2
          obtain ⟨vs, h5, h6⟩ := hGenerateValues_q (fun e he => h e (.tail _ he)) h3 h4
          subst h5
          refine ⟨(name, if c.default.isNone then c.constant else c.default) :: vs, rfl, .cons ?_ h6⟩
          by_cases hn : c.default.isNone = true
          · rw [if_pos hn, if_pos hn]; exact .inl (.atom ha)
          · exact .inr (hq fun e => hn (by rw [e]; rfl))

theorem instMembers_keys {rec : Inst} {defn : List (Str × Field)} : ∀ {d p : List (Val × Val)}, instMembers env rec defn d = .ok p →
    p.map (·.1) = d.map (·.1)
  | [], p, h => by cases h; rfl
  | (k, v) :: r, p, h => by
    unfold instMembers at h
    cases h1 : fieldAt defn k with
    | error e => rw [h1] at h; nomatch h
    | ok f =>
      rw [h1] at h
      change (instChild env rec f v (some k)).bind _ = _ at h
      cases h2 : instChild env rec f v (some k) with
      | error e => rw [h2] at h; nomatch h
      | ok x =>
        rw [h2] at h
        change (instMembers env rec defn r).bind _ = _ at h
        cases h3 : instMembers env rec defn r with
        | error e => rw [h3] at h; nomatch h
        | ok p' =>
          rw [h3] at h
          cases h
          simp only [List.map_cons, instMembers_keys h3]

theorem hElUnserialize_fresh (hz : ZoneLaw env) {h : Heap} (hO : Describes o O K h) (hK : ∀ i, K i → i < h.length)
    {st : Elements} {H : Nat → Option HElAttrs} {cls : Nat} {c : Common} {defn : List (Str × Field)} {strict : Bool}
    (hnames : (defn.map (·.1)).Nodup) (hign : ∀ name g cc, Declares env defn name g cc → cc.default ≠ .none → cc.ignoreNull = false)
    (hat : Everywhere env AtomConst (.structure c defn strict []))
    (hpoly : ((st.classes[cls]?).getD elementCls).polyOn = none)
    {a : ElAttrs} {ha : HElAttrs} (hcl : ((st.classes[cls]?).getD elementCls).attrs = some a)
    (hel : elAttrs env (.structure c defn strict []) = .ok a) (hHc : H cls = some ha) (hhel : hElAttrs env E (.structure c defn strict []) = .ok ha)
    (hf : Everywhere env Ungrouped (.structure c defn strict [])) (hp : Everywhere env PartFree (.structure c defn strict []))
    (hd : DefaultsIn env E h.cells (.structure c defn strict [])) {x : HVal} {v : Val} (hx : Depicts h.cells x v) (n : Nat) :
    Sim h ((hElUnserialize env E O n st H cls (.structure c defn strict []) x).run h) (st.unserialize env o n cls (.structure c defn strict []) v)
      (fun h' p e => MadeElem (part h' (since K h.length)) h.length p e) := by
  obtain ⟨d0, ws0, hg1, hg2, ea, eb⟩ : ∃ d0 ws0, hGenerateValues env E defn = .ok d0 ∧ generateValues env false defn = .ok ws0 ∧
      ha = .plain d0 ∧ a = .plain ws0 := by
    unfold hElAttrs at hhel
    unfold elAttrs generateDefaults at hel
    dsimp only at hhel hel
    rw [if_pos (by rfl)] at hel
    cases h1 : hGenerateValues env E defn with
    | error e => rw [h1] at hhel; nomatch hhel
    | ok d0 =>
      cases h2 : generateValues env false defn with
      | error e => rw [h2] at hel; nomatch hel
      | ok ws0 => rw [h1] at hhel; rw [h2] at hel; cases hhel; cases hel; exact ⟨d0, ws0, rfl, rfl, rfl, rfl⟩
  subst ea eb
  have hdecl : ∀ e ∈ defn, ∀ g cc, resolve env e.2 = some g → g.common? = some cc → Declares env defn e.1 g cc := by
    intro e he g cc hg hcc
    exact ⟨e.2, lookup_nodup hnames he, hg, hcc⟩
  let Q : Str → Prop := fun name => ∃ g cc, Declares env defn name g cc ∧ cc.default ≠ .none ∧ name ∈ defn.map (·.1)
  obtain ⟨vs0, e0, hq⟩ : ∃ vs, ws0 = vs.map (fun e => (.str e.1, e.2)) ∧ DepictsQ (part h K) Q d0 vs :=
    hGenerateValues_q (A := part h K) (fun e he g cc hg hcc =>
      ⟨(hat.child (.member (n := e.1) he hg)).here cc hcc, fun hne => ⟨g, cc, hdecl e he g cc hg hcc, hne, List.mem_map.2 ⟨e, he, rfl⟩⟩⟩) hg1 hg2
  subst e0
  have hs : Spared env (.structure c defn strict []) .inbound true := .inr (.inr fun g hg => (hp g hg).undescribed)
  unfold hElUnserialize Elements.unserialize
  rw [hProcess_quiet n _ hs]
  have hg : Sim h _ _ _ := hProcess_good (env := env) (E := E.quiet) (fun _ _ => rfl) (K := (· < h.length)) (J := fun _ => False) n
    (.structure c defn strict []) h x v .inbound true []
    (fun g hg => ⟨hf g hg, by rw [part_all]; exact hd g hg, .inr (hp g hg)⟩) (fun _ h => h) (fun _ h => h.elim)
    (by rw [part_all]; exact hx)
  refine Sim.bind (Sim.tag hg fun w hw => C01_conforms env hz n _ v w .inbound true [] (.inr rfl) hw) ?_
  intro h' y w hk ⟨hconf, hy⟩
  have hw := conforms_keys hp hconf
  have hlt : ∀ i, since K h.length i ∧ i < h'.length → i < h'.length := fun i hi => hi.2
  cases hconf with
  | null _ _ => cases hy; exact Sim.ok hk trivial
  | «structure» hdk hmem hcf hmust =>
    rename_i dw
    have hQ : ∀ s, Q s → ∃ e ∈ dw, e.1 = .str s := by
      rintro s ⟨g, cc, h1, h2, h3⟩
      exact hmust s (by unfold visited; rw [if_pos rfl]; exact h3) g cc h1 ⟨hign s g cc h1 h2, .inr ⟨rfl, h2⟩⟩
    have hyK : Depicts (part h' (fun i => since K h.length i ∧ i < h'.length)) y (.dict dw) :=
      (hy.mono (part_keeps (Retains.refl _) fun i hi => hi.imp False.elim id)).mono part_bounded
    have hmatch : ∀ k : HVal → HM (Option (Nat × Nat)), (match y with | .atom .none => pure none | y => k y : HM _) = k y := by
      intro k
      cases hyK with
      | dict _ _ => rfl
      | atom ha => nomatch ha
    show Sim h ((match y with | .atom .none => pure none | y => hElMake env O n st H cls (.structure c defn strict []) y : HM _).run h') _ _
    rw [hmatch]
    unfold hElMake Elements.instantiated
    rw [if_neg (by intro h; nomatch h)]
    have hbody := Sim.tag (D := fun u => ∃ d', u = .dict d' ∧ d'.map (·.1) = dw.map (·.1))
      (hInstBody_good (env := env) (fun g => hInstantiate_serves (env := env) hO n g) (.structure c defn strict [])
        (fun i => since K h.length i ∧ i < h'.length) h' y (.dict dw)
        (fun i hi => ⟨.inl hi, Nat.lt_of_lt_of_le (hK i hi) hk.1⟩) hlt hk hw hyK) (by
        intro u hu
        unfold instBody at hu
        dsimp only at hu
        cases hm : instMembers env (instantiate env o n) defn dw with
        | error e => rw [hm] at hu; nomatch hu
        | ok d' => rw [hm] at hu; cases hu; exact ⟨d', rfl, instMembers_keys hm⟩)
    refine Sim.bind (Sim.base hk hbody) ?_
    rintro h1 z u hk1 ⟨hk01, ⟨d', eu, hkeys⟩, hz'⟩
    subst eu
    show Sim h ((do
        match ← dictItems z with
        | some d => do
          let e ← hElInstantiate st H cls d
          return some e
        | none => raise (.py .typeError) : HM (Option (Nat × Nat))).run h1) ((raising (st.instantiate cls d' .none)).map some) _
    have hz1 : Depicts (part h1 (since K h.length)) z (.dict d') := hz'.mono (since_le hk)
    rcases dictItems_run hz1 with ⟨vs', d, ad, he, hza, hcell, hrun, hds⟩ | ⟨hno, _⟩
    · cases he
      rw [hm_ok hrun]
      dsimp only
      have hm := hElInstantiate_plain (K := fun i => since K h.length i ∧ i < h1.length) (Q := Q) (H := H) hpoly hHc hcl
        (DepictsQ.mono (part_keeps hk1 fun i hi => ⟨.inl hi, Nat.lt_of_lt_of_le (hK i hi) hk1.1⟩) hq) (hds.mono part_bounded) (by
          intro s hs
          obtain ⟨e, he, hn⟩ := hQ s hs
          have : e.1 ∈ d'.map (·.1) := by rw [hkeys]; exact List.mem_map.2 ⟨e, he, rfl⟩
          obtain ⟨e', he', hn'⟩ := List.mem_map.1 this
          exact ⟨e', he', hn'.trans hn⟩)
      rw [map_eq_bind]
      refine Sim.bind (Sim.base hk1 hm) ?_
      rintro h'' p e hk2 ⟨_, h1', h2, h3⟩
      refine Sim.ok hk2 ⟨h1', h2 ▸ hk1.1, ?_⟩
      unfold ElemIn at h3 ⊢
      exact h3.mono (since_le hk1)
    · exact absurd rfl (hno d')

end HT
end Scheme
