import Verif.Spec.Telling
import Verif.Props.Locations

/-! C55: structural errors say what is wrong. -/

namespace Scheme

section
variable {env : Env} {rec : Proc} {ph : Phase} {ser : Bool}

theorem Own.telling {anc : List Str} {e : SErr} (h : Own anc e) : Telling e := by
  obtain ⟨_, _, _, _, _, h⟩ := h
  exact .inl (by rw [h]; simp)

theorem outcome_isExc {c : Except Exn Val} (ht : tame c) (h : isOk c = false) : (outcomeVal c).isExc = true := by
  cases c with
  | ok v => cases h
  | error e =>
    cases e with
    | structural e => rfl
    | _ => exact ht.elim

theorem collected_telling {cs : List (Except Exn Val)} (ht : ∀ c ∈ cs, tame c) (h : cs.all isOk = false) {cls : ErrCls}
    {anc : List Str} {v : Val} : Telling ⟨cls, anc, [], .list (cs.map outcomeVal), v⟩ := by
  rw [List.all_eq_false] at h
  obtain ⟨c, hc, h⟩ := h
  obtain ⟨i, hi⟩ := List.getElem?_of_mem hc
  exact .inr ⟨.idx i, outcomeVal c, .idx (by rw [List.getElem?_map, hi]; rfl), outcome_isExc (ht c hc) (by simpa using h)⟩

theorem sequence_telling {c : Common} {item : Field} {mn mx : Option Nat} {u : Bool} {v : Val} {anc : List Str} {e : SErr}
    (h : processSequence env rec c item mn mx u v ph ser anc = .error (.structural e)) : Telling e := by
  unfold processSequence at h
  rw [except_bind_eq_error] at h
  rcases h with h | ⟨b, _, h⟩
  · exact (isNull_own h).telling
  split at h
  · cases h
  split at h
  · rw [except_bind_eq_error] at h
    rcases h with h | ⟨v1, _, h⟩
    · exact (rawPre_raw h).elim
    split at h
    · next l _ =>
      simp only [except_throw, except_pure] at h
      split at h
      · exact (own_mkErr (Except.error.inj h)).telling
      split at h
      · exact (own_mkErr (Except.error.inj h)).telling
      rw [except_bind_eq_error, seqLoop_eq] at h
      rcases h with h | ⟨r, hl, h⟩
      · exact (collectAll_raw h).elim
      rw [collectAll_eq_ok] at hl
      obtain ⟨ht, rfl⟩ := hl
      split at h
      · rename_i hbad
        cases h
        exact collected_telling ht (by simpa using hbad)
      · repeat' split at h
        all_goals first | (cases h; done) | exact (own_mkErr (Except.error.inj h)).telling
    · cases h
  · exact (own_mkErr (Except.error.inj h)).telling

theorem tuple_telling {c : Common} {fs : List Field} {v : Val} {anc : List Str} {e : SErr}
    (h : processTuple env rec c fs v ph ser anc = .error (.structural e)) : Telling e := by
  unfold processTuple at h
  rw [except_bind_eq_error] at h
  rcases h with h | ⟨b, _, h⟩
  · exact (isNull_own h).telling
  split at h
  · cases h
  have body : ∀ (i : Val) (l : List Val),
      (if l.length ≠ fs.length then .error (mkErr (.tuple c fs) .validation (ancOr (.tuple c fs) anc) i c!"length" [(c!"length", natStr fs.length)])
        else tupLoop env rec ph ser (ancOr (.tuple c fs) anc) 0 fs l >>= fun r => if r.2 then .ok (.tuple r.1)
          else .error (.structural ⟨.validation, ancOr (.tuple c fs) anc, [], .list r.1, i⟩) : Except Exn Val) =
        .error (.structural e) → Telling e := by
    intro i l h
    split at h
    · exact (own_mkErr (Except.error.inj h)).telling
    · rw [except_bind_eq_error, tupLoop_eq] at h
      rcases h with h | ⟨r, hl, h⟩
      · exact (collectAll_raw h).elim
      rw [collectAll_eq_ok] at hl
      obtain ⟨ht, rfl⟩ := hl
      split at h
      · cases h
      · rename_i hbad
        cases h
        exact collected_telling ht (Bool.eq_false_iff.2 hbad)
  have go : (rawPre env c v >>= fun i => match i with
        | .list l => (if l.length ≠ fs.length then .error (mkErr (.tuple c fs) .validation (ancOr (.tuple c fs) anc) (.list l) c!"length" [(c!"length", natStr fs.length)])
            else tupLoop env rec ph ser (ancOr (.tuple c fs) anc) 0 fs l >>= fun r => if r.2 then .ok (.tuple r.1)
              else .error (.structural ⟨.validation, ancOr (.tuple c fs) anc, [], .list r.1, .list l⟩) : Except Exn Val)
        | .tuple l => (if l.length ≠ fs.length then .error (mkErr (.tuple c fs) .validation (ancOr (.tuple c fs) anc) (.tuple l) c!"length" [(c!"length", natStr fs.length)])
            else tupLoop env rec ph ser (ancOr (.tuple c fs) anc) 0 fs l >>= fun r => if r.2 then .ok (.tuple r.1)
              else .error (.structural ⟨.validation, ancOr (.tuple c fs) anc, [], .list r.1, .tuple l⟩) : Except Exn Val)
        | _ => .error (.py .typeError)) = .error (.structural e) → Telling e := by
    intro h
    rw [except_bind_eq_error] at h
    rcases h with h | ⟨i, hi, h⟩
    · exact (rawPre_raw h).elim
    · split at h
      · exact body _ _ h
      · exact body _ _ h
      · cases h
  cases v with
  | list l => exact go h
  | tuple l => exact go h
  | _ => exact (own_mkErr (Except.error.inj h)).telling

/-- Some entry is an error. -/
def SomeBad (d : List (Val × Val)) : Prop := ∃ k c, (k, c) ∈ d ∧ c.isExc = true

theorem SomeBad.telling {d : List (Val × Val)} (h : SomeBad d) {cls : ErrCls} {anc : List Str} {v : Val} :
    Telling ⟨cls, anc, [], .dict d, v⟩ := by
  obtain ⟨k, c, h1, h2⟩ := h
  exact .inr ⟨.key k, c, .key h1, h2⟩

theorem mapRequired_telling {f : Field} {anc : List Str} (l : List Val) (acc : List (Val × Val)) (b : Bool)
    (hd : b = false → SomeBad acc) :
    (∀ e, mapRequired env f anc l acc b = .error (.structural e) → Telling e) ∧
    (∀ r, mapRequired env f anc l acc b = .ok r → r.2 = false → SomeBad r.1) := by
  induction l generalizing acc b with
  | nil => exact ⟨fun e h => (by cases h), fun r h => (by cases h; exact hd)⟩
  | cons k r ih =>
    simp only [mapRequired]
    cases hh : hashable k with
    | false => exact ⟨fun e h => (by cases h), fun r h => (by cases h)⟩
    | true =>
      simp only [if_true]
      split
      · exact ih _ _ hd
      · split
        · rename_i e he
          refine ih _ _ (fun _ => ?_)
          obtain ⟨x, hx, h1, _⟩ := dictSet_has (d := acc) (k := k) (v := e.toVal)
          exact ⟨x.1, x.2, hx, by rw [h1]; rfl⟩
        · rename_i hx
          exact ⟨fun e h => (hx e (Except.error.inj h)).elim, fun r h => (by cases h)⟩

theorem mapKey_keyOut {n : Nat} {f : Field} {whole : Val} {key : Option Field} {anc : List Str} {k x : Val}
    (h : mapKey env (process env n) f whole key ph ser anc k = .ok x) : KeyOut env ph ser key k x := by
  unfold mapKey at h
  split at h
  · rw [except_bind_eq_ok] at h
    obtain ⟨s, _, h⟩ := h
    split at h
    · cases h; exact ⟨n, _, ‹_›⟩
    · cases h
    · cases h
  · split at h
    · cases h; rfl
    · cases h

theorem map_telling {n : Nat} {c : Common} {key : Option Field} {value : Field} {req : List Val} {v : Val} {anc : List Str}
    {e : SErr} (hc : Clear env ph ser (.map c key value req) v)
    (h : processMap env (process env n) c key value req v ph ser anc = .error (.structural e)) : Telling e := by
  cases hc with
  | map hc =>
  unfold processMap at h
  rw [except_bind_eq_error] at h
  rcases h with h | ⟨b, _, h⟩
  · exact (isNull_own h).telling
  split at h
  · cases h
  split at h
  · rw [except_bind_eq_error] at h
    rcases h with h | ⟨v1, hv1, h⟩
    · exact (rawPre_raw h).elim
    split at h
    · rename_i d
      have hd := hc d (by
        unfold rawPre at hv1; unfold containerInput
        split at hv1
        · split at hv1
          · cases hv1; simp [*]
          · cases hv1
        · cases hv1; simp [*])
      rw [except_bind_eq_error] at h
      rcases h with h | ⟨r, hr1, h⟩
      · have hr : Locates env (process env n) := ⟨C08_locations env n, fun f v ph ser anc x h => ⟨n, v, h⟩⟩
        have := (mapLoop_located (req := req) hr d [] true (by simp)).1 e h
        exact this.telling
      · rw [mapLoop_eq, except_bind_eq_ok] at hr1
        obtain ⟨es, hes, hr1⟩ := hr1
        cases hr1
        rw [seqAll_eq_ok] at hes
        have hnew : (es.map fun e => (e.1, e.2.1)).Pairwise fun a b => pyEq b.1 a.1 = false := by
          have key : ∀ (whole : Val) (anc : List Str) (d : List (Val × Val)) (es : List (Val × Val × Bool)),
              (d.Pairwise fun a b => ∀ x y, KeyOut env ph ser key a.1 x → KeyOut env ph ser key b.1 y → pyEq y x = false) →
              d.map (entryOut env (process env n) (.map c key value req) whole key value ph ser anc) = es.map .ok →
              (∀ e ∈ es, ∃ a ∈ d, KeyOut env ph ser key a.1 e.1) ∧
              (es.map fun e => (e.1, e.2.1)).Pairwise fun a b => pyEq b.1 a.1 = false := by
            intro whole anc d
            induction d with
            | nil => intro es _ h; cases es <;> simp at h ⊢
            | cons a d ih =>
              intro es hp h
              cases es with
              | nil => simp at h
              | cons x es =>
                rw [List.map_cons, List.map_cons] at h
                injection h with h1 h2
                rw [List.pairwise_cons] at hp
                obtain ⟨i1, i2⟩ := ih es hp.2 h2
                have hx : KeyOut env ph ser key a.1 x.1 := by
                  unfold entryOut at h1
                  rw [except_bind_eq_ok] at h1
                  obtain ⟨k', hk', h1⟩ := h1
                  rw [except_bind_eq_ok] at h1
                  obtain ⟨st, _, h1⟩ := h1
                  rw [except_bind_eq_ok] at h1
                  obtain ⟨y, _, h1⟩ := h1
                  split at h1
                  · cases h1; exact mapKey_keyOut hk'
                  · cases h1
                refine ⟨?_, ?_⟩
                · intro e he
                  rcases List.mem_cons.1 he with rfl | he
                  · exact ⟨a, List.mem_cons_self .., hx⟩
                  · obtain ⟨a', h1, h2⟩ := i1 e he
                    exact ⟨a', List.mem_cons_of_mem _ h1, h2⟩
                · rw [List.map_cons, List.pairwise_cons]
                  refine ⟨?_, i2⟩
                  intro b hb
                  obtain ⟨e, he, rfl⟩ := List.mem_map.1 hb
                  obtain ⟨a', h3, h4⟩ := i1 e he
                  exact hp.1 a' h3 _ _ hx h4
          exact (key _ _ d es hd hes).2
        have hfold : es.foldl (fun a e => dictSet a e.1 e.2.1) [] = es.map fun e => (e.1, e.2.1) := by
          have := foldl_dictSet_new (es.map fun e => (e.1, e.2.1)) [] hnew (by simp)
          rw [List.foldl_map] at this
          simpa using this
        have hbad : (true && es.all (·.2.2)) = false → SomeBad (es.foldl (fun a e => dictSet a e.1 e.2.1) []) := by
          intro hb
          simp only [Bool.true_and, List.all_eq_false] at hb
          obtain ⟨x, hx, hb⟩ := hb
          rw [hfold]
          refine ⟨x.1, x.2.1, List.mem_map.2 ⟨x, hx, rfl⟩, ?_⟩
          have : Except.ok x ∈ es.map (Except.ok (ε := Exn)) := List.mem_map.2 ⟨x, hx, rfl⟩
          rw [← hes] at this
          obtain ⟨a, _, ha⟩ := List.mem_map.1 this
          unfold entryOut at ha
          rw [except_bind_eq_ok] at ha
          obtain ⟨k', hk', ha⟩ := ha
          rw [except_bind_eq_ok] at ha
          obtain ⟨st, _, ha⟩ := ha
          rw [except_bind_eq_ok] at ha
          obtain ⟨y, hy, ha⟩ := ha
          obtain ⟨ht, rfl⟩ := collect_eq_ok.1 hy
          split at ha
          · cases ha; exact outcome_isExc ht (by simpa using hb)
          · cases ha
        have hq := mapRequired_telling (env := env) (f := .map c key value req) (anc := ancOr (.map c key value req) anc) req
          _ _ hbad
        rw [except_bind_eq_error] at h
        rcases h with h | ⟨r2, hr2, h⟩
        · exact hq.1 _ h
        · split at h
          · cases h
          · rename_i hbad2
            cases h
            exact (hq.2 _ hr2 (by simpa using hbad2)).telling
    · cases h
  · exact (own_mkErr (Except.error.inj h)).telling

theorem structUnknown_telling {f : Field} {anc : List Str} (l : List Val) (st : SState)
    (hd : st.valid = false → SomeBad st.out) :
    (∀ e, structUnknown env f anc l st = .error (.structural e) → Telling e) ∧
    (∀ r, structUnknown env f anc l st = .ok r → r.valid = false → SomeBad r.out) := by
  induction l generalizing st with
  | nil => exact ⟨fun e h => (by cases h), fun r h => (by cases h; exact hd)⟩
  | cons k r ih =>
    simp only [structUnknown]
    split
    · rename_i e he
      refine ih _ (fun _ => ?_)
      obtain ⟨x, hx, h1, _⟩ := dictSet_has (d := st.out) (k := k) (v := e.toVal)
      exact ⟨x.1, x.2, hx, by rw [h1]; rfl⟩
    · rename_i hx
      exact ⟨fun e h => (hx e (Except.error.inj h)).elim, fun r h => (by cases h)⟩

theorem fieldOut_bad {anc : List Str} {name : Str} {field : Field} {fv : Val} {x : Option Val × Bool}
    (h : fieldOut env rec ph ser anc name field fv = .ok x) (hx : x.2 = false) : ∃ c, x.1 = some c ∧ c.isExc = true := by
  unfold fieldOut at h
  split at h
  · cases h
  · split at h
    · cases h
    · split at h
      · cases h; cases hx
      · rw [except_bind_eq_ok] at h
        obtain ⟨y, hy, h⟩ := h
        cases h
        obtain ⟨ht, rfl⟩ := collect_eq_ok.1 hy
        exact ⟨_, rfl, outcome_isExc ht hx⟩

theorem memberOut_bad {f : Field} {value : List (Val × Val)} {defn : List (Str × Field)} {part : Bool} {anc : List Str}
    {name : Str} {x : Option Val × Bool}
    (h : memberOut env rec f value defn ph ser part anc name = .ok x) (hx : x.2 = false) :
    ∃ c, x.1 = some c ∧ c.isExc = true := by
  unfold memberOut at h
  split at h
  · cases h
  · split at h
    · exact fieldOut_bad h hx
    · split at h
      · cases h; cases hx
      · split at h
        · cases h
        · split at h
          · exact fieldOut_bad h hx
          · split at h
            · split at h
              · cases h; exact ⟨_, rfl, rfl⟩
              · cases h
            · cases h; cases hx

theorem memberOut_raw {f : Field} {value : List (Val × Val)} {defn : List (Str × Field)} {part : Bool} {anc : List Str}
    {name : Str} {e : SErr} (h : memberOut env rec f value defn ph ser part anc name = .error (.structural e)) : False := by
  have fo : ∀ {field fv}, fieldOut env rec ph ser anc name field fv = .error (.structural e) → False := by
    intro field fv h
    unfold fieldOut at h
    split at h
    · cases h
    · split at h
      · cases h
      · split at h
        · cases h
        · rw [except_bind_eq_error] at h
          rcases h with h | ⟨y, _, h⟩
          · exact collect_raw h
          · cases h
  unfold memberOut at h
  split at h
  · cases h
  · split at h
    · exact fo h
    · split at h
      · cases h
      · split at h
        · cases h
        · split at h
          · exact fo h
          · split at h
            · split at h
              · cases h
              · rename_i hx
                exact hx _ (Except.error.inj h)
            · cases h

theorem seqAll_raw {α : Type} {cs : List (Except Exn α)} {e : Exn} (h : seqAll cs = .error e) : .error e ∈ cs := by
  induction cs with
  | nil => cases h
  | cons c r ih =>
    rw [seqAll, except_bind_eq_error] at h
    rcases h with h | ⟨a, _, h⟩
    · rw [h]; exact List.mem_cons_self ..
    · rw [except_bind_eq_error] at h
      rcases h with h | ⟨b, _, h⟩
      · exact List.mem_cons_of_mem _ (ih h)
      · cases h

theorem structBody_telling {f : Field} {strict : Bool} {order : List Str} {defn : List (Str × Field)}
    {d : List (Val × Val)} {part : Bool} {anc : List Str} {e : SErr} (hnd : order.Nodup)
    (h : structBody env rec f strict order defn d ph ser part anc = .error (.structural e)) : Telling e := by
  rw [structBody_eq _ _ _ _ _ _ _ _ _ _ _ hnd, except_bind_eq_error] at h
  rcases h with h | ⟨ms, hms, h⟩
  · obtain ⟨n, _, hn⟩ := List.mem_map.1 (seqAll_raw h)
    exact (memberOut_raw hn).elim
  · rw [seqAll_eq_ok] at hms
    have hlen : order.length = ms.length := by simpa using congrArg List.length hms
    have hbad : ms.all (·.2) = false →
        SomeBad ((order.zip ms).filterMap (fun x => x.2.1.map fun v => (.str x.1, v))) := by
      intro hb
      rw [List.all_eq_false] at hb
      obtain ⟨x, hx, hb⟩ := hb
      obtain ⟨i, hi⟩ := List.getElem?_of_mem hx
      have hlt : i < order.length := by
        rw [hlen]; exact (List.getElem?_eq_some_iff.1 hi).1
      have ho : order[i]? = some order[i] := List.getElem?_eq_getElem hlt
      have hm := congrArg (fun t => t[i]?) hms
      simp only [List.getElem?_map, hi, ho, Option.map_some, Option.some.injEq] at hm
      obtain ⟨c, hc1, hc2⟩ := memberOut_bad hm (by simpa using hb)
      refine ⟨.str order[i], c, List.mem_filterMap.2 ⟨(order[i], x), ?_, by simp [hc1]⟩, hc2⟩
      exact List.mem_of_getElem? (List.getElem?_zip_eq_some.2 ⟨ho, hi⟩)
    rw [except_bind_eq_error] at h
    have fin : ∀ st : SState, (st.valid = false → SomeBad st.out) →
        (if st.valid then .ok (.dict st.out) else .error (.structural ⟨.validation, anc, [], .dict st.out, .dict d⟩) :
          Except Exn Val) = .error (.structural e) → Telling e := by
      intro st hst h
      split at h
      · cases h
      · rename_i hv
        cases h
        exact (hst (by simpa using hv)).telling
    cases strict with
    | false =>
      simp only [Bool.false_eq_true, if_false] at h
      rcases h with h | ⟨st, hst, h⟩
      · cases h
      · cases hst; exact fin _ hbad h
    | true =>
      simp only [if_true] at h
      have hu := structUnknown_telling (env := env) (f := f) (anc := anc) (leftover order d)
        ⟨leftover order d, (order.zip ms).filterMap (fun x => x.2.1.map fun v => (.str x.1, v)), ms.all (·.2)⟩ hbad
      rcases h with h | ⟨st, hst, h⟩
      · exact hu.1 _ h
      · exact fin _ (hu.2 _ hst) h

theorem structure_telling {c : Common} {defn : List (Str × Field)} {strict part : Bool} {ko : List Str} {v : Val}
    {anc : List Str} {e : SErr} (hnd : (visited defn ko).Nodup)
    (h : processStructure env rec c defn strict ko part v ph ser anc = .error (.structural e)) : Telling e := by
  unfold processStructure at h
  rw [except_bind_eq_error] at h
  rcases h with h | ⟨b, hb, h⟩
  · exact (isNull_own h).telling
  split at h
  · cases h
  split at h
  · rw [except_bind_eq_error] at h
    rcases h with h | ⟨i, hi, h⟩
    · exact (structPre_own h).telling
    · split at h
      · have ho : (if ko.isEmpty then defn.map (·.1) else ko) = visited defn ko := by
          unfold visited; cases ko <;> simp
        rw [ho] at h
        exact structBody_telling hnd h
      · cases h
  · exact (own_mkErr (Except.error.inj h)).telling

theorem poly_telling {c : Common} {dsc : Field} {vs : List (Val × List (Str × Field))} {strict part : Bool} {ko : List Str}
    {v : Val} {anc : List Str} {e : SErr} (hnd : ∀ i defn, (i, defn) ∈ vs → (visited defn ko).Nodup)
    (hdisc : ∀ w anc e, rec dsc w ph ser anc = .error (.structural e) → Telling e)
    (h : processPoly env rec c dsc vs strict ko part v ph ser anc = .error (.structural e)) : Telling e := by
  unfold processPoly at h
  rw [except_bind_eq_error] at h
  rcases h with h | ⟨b, hb, h⟩
  · exact (isNull_own h).telling
  split at h
  · cases h
  split at h
  · rw [except_bind_eq_error] at h
    rcases h with h | ⟨i, hi, h⟩
    · exact (structPre_own h).telling
    · split at h
      · rename_i d'
        simp only at h
        split at h
        · exact (own_mkErr (Except.error.inj h)).telling
        · simp only [except_throw] at h
          generalize (dictGet d' (.str (dsc.name.getD []))).getD .none = w at h
          have h : (rec dsc w ph ser (ancOr (.poly c dsc vs strict ko) anc ++ ['.' :: dsc.name.getD []]) >>= fun id =>
              if (!hashable id) = true then .error (.py .typeError) else
              match variantGet vs id with
              | none => .error (mkErr (.poly c dsc vs strict ko) .validation (ancOr (.poly c dsc vs strict ko) anc) id c!"unrecognized" [])
              | some defn =>
                if defn.isEmpty then .error (mkErr (.poly c dsc vs strict ko) .validation (ancOr (.poly c dsc vs strict ko) anc) id c!"unrecognized" [])
                else if (!ko.isEmpty && id.truthy) = true then .error (.py .typeError) else
                structBody env rec (.poly c dsc vs strict ko) strict (if ko.isEmpty then defn.map (·.1) else ko) defn d'
                  ph ser part (ancOr (.poly c dsc vs strict ko) anc) : Except Exn Val) = .error (.structural e) := h
          rw [except_bind_eq_error] at h
          rcases h with h | ⟨id, hid, h⟩
          · exact hdisc _ _ _ h
          · split at h
            · cases h
            · split at h
              · exact (own_mkErr (Except.error.inj h)).telling
              · rename_i defn hv
                obtain ⟨i, hvs⟩ := variantGet_mem hv
                split at h
                · exact (own_mkErr (Except.error.inj h)).telling
                · split at h
                  · cases h
                  · have ho : (if ko.isEmpty then defn.map (·.1) else ko) = visited defn ko := by
                      unfold visited; cases ko <;> simp
                    rw [ho] at h
                    exact structBody_telling (hnd _ _ hvs) h
      · cases h
  · exact (own_mkErr (Except.error.inj h)).telling

theorem union_telling {c : Common} {fs : List Field} {v : Val} {anc : List Str} {e : SErr}
    (hm : ∀ f ∈ fs, ∀ g, resolve env f = some g → ∀ anc e, rec g v ph ser anc = .error (.structural e) → Telling e)
    (h : processUnion env rec c fs v ph ser anc = .error (.structural e)) : Telling e := by
  unfold processUnion at h
  rw [except_bind_eq_error] at h
  rcases h with h | ⟨b, hb, h⟩
  · exact (isNull_own h).telling
  split at h
  · cases h
  have loop : ∀ (fs : List Field) anc, (∀ f ∈ fs, ∀ g, resolve env f = some g → ∀ anc e, rec g v ph ser anc = .error (.structural e) → Telling e) →
      unionLoop env rec v ph ser anc fs = some (.error (.structural e)) → Telling e := by
    intro fs anc
    induction fs with
    | nil => intro _ h; cases h
    | cons f fs ih =>
      intro hm h
      simp only [unionLoop] at h
      split at h
      · rename_i e' he'
        split at h
        · exact ih (fun f hf => hm f (List.mem_cons_of_mem _ hf)) h
        · cases h
          unfold callChild at he'
          split at he'
          · cases he'
          · exact hm f (List.mem_cons_self ..) _ ‹_› _ _ he'
      · rename_i hx
        exact (hx _ (Option.some.inj h)).elim
  split at h
  · rename_i r hr
    rw [h] at hr
    exact loop fs _ hm hr
  · exact (own_mkErr (Except.error.inj h)).telling

theorem leaf_telling {c : Common} {k : Leaf} {v : Val} {anc : List Str} {e : SErr}
    (henv : ∀ e, (∃ h, env.describe h = .error (.structural e)) ∨ (∃ d, env.surrUnserialize d = .error (.structural e)) ∨
      (∃ h, env.surrSerialize h = .error (.structural e)) → Telling e)
    (h : processLeaf env c k v ph ser anc = .error (.structural e)) : Telling e := by
  have := leaf_located h
  cases this with
  | own h => exact h.telling
  | object _ _ h => exact h.telling
  | describe _ _ h => exact henv e (.inl ⟨_, h⟩)
  | surrogateIn _ _ h => exact henv e (.inr (.inl ⟨_, h⟩))
  | surrogateOut _ _ h => exact henv e (.inr (.inr ⟨_, h⟩))

end

/-- C55: a structural error says what is wrong: it has an entry of its own, or at least one of the values in its
structure is an error. -/
theorem C55_telling (env : Env) (n : Nat) (f : Field) (v : Val) (ph : Phase) (ser : Bool) (anc : List Str) (e : SErr)
    (henv : ∀ e, (∃ h, env.describe h = .error (.structural e)) ∨ (∃ d, env.surrUnserialize d = .error (.structural e)) ∨
      (∃ h, env.surrSerialize h = .error (.structural e)) → Telling e)
    (hf : Clear env ph ser f v) (h : process env n f v ph ser anc = .error (.structural e)) : Telling e := by
  induction n generalizing f v anc e with
  | zero => cases h
  | succ n ih =>
    cases f with
    | leaf => exact leaf_telling henv h
    | sequence => exact sequence_telling h
    | tuple => exact tuple_telling h
    | map => exact map_telling hf h
    | union =>
      cases hf with
      | union hf => exact union_telling (fun f hm g hg anc e h => ih g v anc e (hf f hm g hg) h) h
    | «structure» =>
      cases hf with
      | «structure» hf => exact structure_telling hf h
    | poly =>
      cases hf with
      | poly h1 h2 => exact poly_telling h2 (fun w anc e h => ih _ w anc e (h1 w) h) h
    | undef => cases h

/-- So the serialized form of the error is not empty. -/
theorem C55_serialized (env : Env) (n : Nat) (f : Field) (v : Val) (ph : Phase) (ser : Bool) (anc : List Str) (e : SErr)
    (henv : ∀ e, (∃ h, env.describe h = .error (.structural e)) ∨ (∃ d, env.surrUnserialize d = .error (.structural e)) ∨
      (∃ h, env.surrSerialize h = .error (.structural e)) → Telling e)
    (hf : Clear env ph ser f v) (h : process env n f v ph ser anc = .error (.structural e)) :
    serializeErr e.errors e.struct ≠ .tuple [.none, .none] := by
  intro hs
  rcases C55_telling env n f v ph ser anc e henv hf h with h | ⟨s, c, h, -⟩
  · cases he : e.errors with
    | nil => exact h he
    | cons a r => rw [he] at hs; simp [serializeErr] at hs
  · generalize e.struct = st at h hs
    cases h with
    | @idx l i c h =>
      have : (Val.list l).truthy = true := by cases l <;> simp [Val.truthy] at h ⊢
      simp only [serializeErr, this, if_true, serStruct] at hs
      simp at hs
    | @key d k c h =>
      have : (Val.dict d).truthy = true := by cases d <;> simp [Val.truthy] at h ⊢
      simp only [serializeErr, this, if_true, serStruct] at hs
      simp at hs

/-- A map whose key field makes the same key of two given ones stores only the later value: here a bad value under
'a ' is replaced by the good one under 'a', and the error names nothing. -/
theorem C55_colliding_keys :
    let f : Field := .map { name := some c!"m" } (some (.leaf {} (.text none none none true))) (.leaf {} (.integer none none)) []
    ∃ e, process Ex.env 5 f (.dict [(.str c!"a ", .str c!"x"), (.str c!"a", .int 1)]) .inbound false [] = .error (.structural e) ∧
      ¬ Telling e := by
  refine ⟨_, rfl, ?_⟩
  rintro (h | ⟨s, c, h, hc⟩)
  · exact h rfl
  · cases h with
    | @key _ k c h =>
      have h : (k, c) ∈ [(Val.str c!"a", Val.int 1)] := h
      simp only [List.mem_singleton, Prod.mk.injEq] at h
      obtain ⟨_, rfl⟩ := h
      cases hc

/-- Likewise a name listed twice in key_order: the default replaces the error. -/
theorem C55_key_order_twice :
    let f : Field := .structure { name := some c!"s" } [(c!"a", .leaf { default := .int 1 } (.integer none none))] true
      [c!"a", c!"a"]
    ∃ e, process Ex.env 5 f (.dict [(.str c!"a", .str c!"x")]) .inbound false [] = .error (.structural e) ∧
      ¬ Telling e := by
  refine ⟨_, rfl, ?_⟩
  rintro (h | ⟨s, c, h, hc⟩)
  · exact h rfl
  · cases h with
    | @key _ k c h =>
      have h : (k, c) ∈ [(Val.str c!"a", Val.int 1)] := h
      simp only [List.mem_singleton, Prod.mk.injEq] at h
      obtain ⟨_, rfl⟩ := h
      cases hc

example : Clear Ex.env .inbound false (.map {} none (.leaf {} (.integer none none)) [])
    (.dict [(.str c!"a", .str c!"x"), (.str c!"b", .int 1)]) := by
  refine .map fun d h => ?_
  cases h
  simp [KeyOut, pyEq]

end Scheme
