import Verif.Lemmas.StructBody
import Verif.Props.Sequence
import Verif.Props.Tuple
import Verif.Props.Map
import Verif.Props.Poly
import Verif.Props.Null

/-! Exact conditions of acceptance for every container, null included, at any location. -/

namespace Scheme

theorem process_anc (env : Env) (n : Nat) (f : Field) (v : Val) (ph : Phase) (ser : Bool) (anc : List Str) :
    process env n f v ph ser anc = process env n f v ph ser (ancOr f anc) := by
  cases anc with
  | nil => exact process_root ..
  | cons a r => rfl

theorem ancOr_ne_nil (f : Field) (anc : List Str) : ancOr f anc ≠ [] := by
  cases anc <;> simp [ancOr]

theorem process_none_ok {env : Env} {n : Nat} {f : Field} {c : Common} {ph : Phase} {ser : Bool} {anc : List Str} {w : Val}
    (hc : f.common? = some c) :
    process env (n + 1) f .none ph ser anc = .ok w ↔ w = .none ∧ c.nonnull = false := by
  constructor
  · intro h
    cases hn : c.nonnull
    · rw [C04_null_accepted env n f c hc hn] at h; cases h; exact ⟨rfl, rfl⟩
    · rw [process_of_isNull_error (by rw [hc]; rfl) (by rw [isNull_none hc, hn]; rfl)] at h
      cases h
  · rintro ⟨rfl, hn⟩; exact C04_null_accepted env n f c hc hn ph ser anc

/-- Acceptance by a sequence. -/
theorem seq_ok {env : Env} {n : Nat} {c : Common} {item : Field} {mn mx : Option Nat} {u : Bool} (hpre : c.pre = none)
    {v w : Val} {ph : Phase} {ser : Bool} {anc : List Str} :
    process env (n + 1) (.sequence c item mn mx u) v ph ser anc = .ok w ↔
      (v = .none ∧ w = .none ∧ c.nonnull = false) ∨
      ∃ l rs, v = .list l ∧ w = .list rs ∧ rs.length = l.length ∧
        (∀ m, mn = some m → m ≤ l.length) ∧ (∀ m, mx = some m → l.length ≤ m) ∧
        (∀ i x r, l[i]? = some x → rs[i]? = some r → ∃ g, resolve env item = some g ∧
          process env n g x ph ser (ancOr (.sequence c item mn mx u) anc ++ [idxStep i]) = .ok r) ∧
        (u = true → (∀ r ∈ rs, hashable r = true) ∧ rs.Pairwise fun a b => pyEq a b = false) := by
  by_cases hv : v = .none
  · subst hv
    rw [process_none_ok rfl]
    simp
  by_cases hl : ∃ l, v = .list l
  · obtain ⟨l, rfl⟩ := hl
    rw [process_anc]
    generalize hA : ancOr (.sequence c item mn mx u) anc = A
    have hne : A ≠ [] := hA ▸ ancOr_ne_nil _ _
    show processSequence env (process env n) c item mn mx u (.list l) ph ser A = .ok w ↔ _
    rw [processSequence_list hpre hne]
    simp only [reduceCtorEq, false_and, false_or, Val.list.injEq]
    constructor
    · intro h
      split at h
      · simp at h
      · rename_i h1
        split at h
        · simp at h
        · rename_i h2
          rw [except_bind_eq_ok] at h
          obtain ⟨⟨rs, b⟩, hr, h⟩ := h
          split at h
          · simp at h
          · rename_i hb
            simp only [Bool.not_eq_false] at hb
            subst hb
            rw [collectAll_ok_true] at hr
            have hlen : rs.length = l.length := by
              have := congrArg List.length hr; simpa using this.symm
            have hk : ∀ i x r, l[i]? = some x → rs[i]? = some r → ∃ g, resolve env item = some g ∧
                process env n g x ph ser (A ++ [idxStep i]) = .ok r := by
              intro i x r hx hri
              have := congrArg (fun z => z[i]?) hr
              simp only [List.getElem?_mapIdx, hx, Option.map_some, List.getElem?_map, hri, Option.some.injEq] at this
              unfold callChild at this
              split at this
              · simp at this
              · rename_i g hg; exact ⟨g, hg, this⟩
            have hmn : ∀ m, mn = some m → m ≤ l.length := by
              rintro m rfl; simpa using h1
            have hmx : ∀ m, mx = some m → l.length ≤ m := by
              rintro m rfl; simpa using h2
            split at h
            · split at h
              · rename_i hh
                split at h
                · rename_i hd
                  cases h
                  exact ⟨l, rs, rfl, rfl, hlen, hmn, hmx, hk,
                    fun _ => ⟨fun r hr => List.all_eq_true.1 hh r hr, (allDistinct_iff _).1 hd⟩⟩
                · simp at h
              · simp at h
            · rename_i hu
              cases h
              exact ⟨l, rs, rfl, rfl, hlen, hmn, hmx, hk, fun h => absurd h hu⟩
    · rintro ⟨l, rs, rfl, rfl, hlen, hmn, hmx, hk, hu⟩
      rw [if_neg, if_neg]
      · have : collectAll (l.mapIdx fun j v => callChild env (process env n) item v ph ser (A ++ [idxStep j])) =
            .ok (rs, true) := by
          rw [collectAll_ok_true]
          apply List.ext_getElem?
          intro i
          rw [List.getElem?_mapIdx, List.getElem?_map]
          by_cases hi : i < l.length
          · have h1 : l[i]? = some l[i] := List.getElem?_eq_getElem hi
            have h2 : rs[i]? = some (rs[i]'(by omega)) := List.getElem?_eq_getElem (by omega)
            obtain ⟨g, hg, h⟩ := hk i _ _ h1 h2
            rw [h1, h2]
            simp only [Option.map_some, callChild, hg, h]
          · rw [List.getElem?_eq_none (by omega), List.getElem?_eq_none (by omega)]; rfl
        rw [this]
        simp only [except_bind_ok, Bool.true_eq_false, if_false]
        cases u with
        | false => rfl
        | true =>
          obtain ⟨h1, h2⟩ := hu rfl
          rw [if_pos rfl, if_pos (List.all_eq_true.2 h1), if_pos ((allDistinct_iff _).2 h2)]
      · cases mx with
        | none => simp
        | some m => have := hmx m rfl; simpa using this
      · cases mn with
        | none => simp
        | some m => have := hmn m rfl; simpa using this
  · have hn : isNull (.sequence c item mn mx u) v (ancOr (.sequence c item mn mx u) anc) = .ok false :=
      isNull_nonEnum rfl (by simp) hv
    constructor
    · intro h
      exfalso
      have h : processSequence env (process env n) c item mn mx u v ph ser anc = .ok w := h
      unfold processSequence at h
      simp only [hn, except_bind_ok] at h
      cases v <;> first | exact hl ⟨_, rfl⟩ | (cases h; done)
    · rintro (⟨rfl, _⟩ | ⟨l, _, rfl, _⟩)
      · exact absurd rfl hv
      · exact absurd ⟨l, rfl⟩ hl

/-- Acceptance by a tuple. -/
theorem tup_ok {env : Env} {n : Nat} {c : Common} {fs : List Field} (hpre : c.pre = none)
    {v w : Val} {ph : Phase} {ser : Bool} {anc : List Str} :
    process env (n + 1) (.tuple c fs) v ph ser anc = .ok w ↔
      (v = .none ∧ w = .none ∧ c.nonnull = false) ∨
      ∃ l rs, (v = .list l ∨ v = .tuple l) ∧ w = .tuple rs ∧ l.length = fs.length ∧ rs.length = l.length ∧
        ∀ i f x, fs[i]? = some f → l[i]? = some x → ∃ g r, resolve env f = some g ∧ rs[i]? = some r ∧
          process env n g x ph ser (ancOr (.tuple c fs) anc ++ [idxStep i]) = .ok r := by
  by_cases hv : v = .none
  · subst hv
    rw [process_none_ok rfl]
    simp
  by_cases hl : ∃ l, v = .list l ∨ v = .tuple l
  · obtain ⟨l, hl⟩ := hl
    rw [process_anc, C10_tuple_accepts_iff env n c fs hpre v l hl w ph ser _ (ancOr_ne_nil _ _)]
    constructor
    · rintro ⟨h1, rs, h2, h3, h4⟩
      exact .inr ⟨l, rs, hl, h2, h1, h3, h4⟩
    · rintro (⟨h, _⟩ | ⟨l', rs, hl', h2, h1, h3, h4⟩)
      · exact absurd h hv
      · have : l' = l := by
          rcases hl with rfl | rfl <;> rcases hl' with h | h <;> cases h <;> rfl
        subst this
        exact ⟨h1, rs, h2, h3, h4⟩
  · have hn : isNull (.tuple c fs) v (ancOr (.tuple c fs) anc) = .ok false := isNull_nonEnum rfl (by simp) hv
    constructor
    · intro h
      exfalso
      have h : processTuple env (process env n) c fs v ph ser anc = .ok w := h
      unfold processTuple at h
      simp only [hn, except_bind_ok] at h
      cases v <;> first | exact hl ⟨_, .inl rfl⟩ | exact hl ⟨_, .inr rfl⟩ | (cases h; done)
    · rintro (⟨rfl, _⟩ | ⟨l, _, h, _⟩)
      · exact absurd rfl hv
      · exact absurd ⟨l, h⟩ hl

/-- Acceptance by a map. -/
theorem map_ok {env : Env} {n : Nat} {c : Common} {key : Option Field} {value : Field} {req : List Val}
    (hpre : c.pre = none) {v w : Val} {ph : Phase} {ser : Bool} {anc : List Str} :
    process env (n + 1) (.map c key value req) v ph ser anc = .ok w ↔
      (v = .none ∧ w = .none ∧ c.nonnull = false) ∨
      ∃ d es : List (Val × Val), v = .dict d ∧ es.length = d.length ∧
        (∀ (i : Nat) k v, d[i]? = some (k, v) → ∃ k' r, es[i]? = some (k', r) ∧
          KeyOk env n ph ser (ancOr (.map c key value req) anc) key k k' ∧
          hashable k' = true ∧ EntryOk env n ph ser (ancOr (.map c key value req) anc) value k' v r) ∧
        ∃ out, w = .dict out ∧ out = es.foldl (fun a e => dictSet a e.1 e.2) [] ∧
          ∀ k ∈ req, hashable k = true ∧ ∃ e ∈ out, pyEq k e.1 = true := by
  by_cases hv : v = .none
  · subst hv
    rw [process_none_ok rfl]
    simp
  by_cases hl : ∃ d, v = .dict d
  · obtain ⟨d, rfl⟩ := hl
    rw [process_anc, C11_map_accepts_iff env n c key value req hpre d w ph ser _ (ancOr_ne_nil _ _)]
    constructor
    · rintro ⟨es, h⟩; exact .inr ⟨d, es, rfl, h⟩
    · rintro (⟨h, _⟩ | ⟨d', es, h, h'⟩)
      · cases h
      · cases h; exact ⟨es, h'⟩
  · have hn : isNull (.map c key value req) v (ancOr (.map c key value req) anc) = .ok false :=
      isNull_nonEnum rfl (by simp) hv
    constructor
    · intro h
      exfalso
      have h : processMap env (process env n) c key value req v ph ser anc = .ok w := h
      unfold processMap at h
      simp only [hn, except_bind_ok] at h
      cases v <;> first | exact hl ⟨_, rfl⟩ | (cases h; done)
    · rintro (⟨rfl, _⟩ | ⟨l, _, h, _⟩)
      · exact absurd rfl hv
      · exact absurd ⟨l, h⟩ hl

theorem memberOut_declares {env : Env} {rec : Proc} {f : Field} {d : List (Val × Val)} {defn : List (Str × Field)}
    {ph : Phase} {ser : Bool} {anc : List Str} {name : Str} {x : Option Val × Bool}
    (h : memberOut env rec f d defn ph ser false anc name = .ok x) : ∃ g c, Declares env defn name g c := by
  have key : ∀ {field v}, fieldOut env rec ph ser anc name field v = .ok x → ∃ g c, resolve env field = some g ∧
      g.common? = some c := by
    intro field v h
    unfold fieldOut at h
    split at h
    · simp at h
    · rename_i g hg
      split at h
      · simp at h
      · rename_i c hc; exact ⟨g, c, hg, hc⟩
  unfold memberOut at h
  split at h
  · simp at h
  · rename_i field hl
    split at h
    · obtain ⟨g, c, h1, h2⟩ := key h; exact ⟨g, c, field, hl, h1, h2⟩
    · simp only [Bool.false_eq_true, if_false] at h
      split at h
      · simp at h
      · rename_i c hc
        rw [Option.bind_eq_some_iff] at hc
        obtain ⟨g, h1, h2⟩ := hc
        exact ⟨g, c, field, hl, h1, h2⟩

/-- Acceptance by the body of a structure. -/
theorem structBody_ok {env : Env} {n : Nat} {f : Field} {strict : Bool} {order : List Str}
    {defn : List (Str × Field)} {d : List (Val × Val)} {ph : Phase} {ser : Bool} {anc : List Str}
    (hnd : order.Nodup) {w : Val} :
    structBody env (process env n) f strict order defn d ph ser false anc = .ok w ↔
      (strict = true → ∀ e ∈ d, ∃ name ∈ order, e.1 = .str name) ∧
      ∃ slots : List (Str × Option Val), slots.map (·.1) = order ∧
        (∀ x ∈ slots, SlotOk env n defn d ph ser false anc x.1 x.2) ∧
        w = .dict (slotDict slots) := by
  constructor
  · intro h
    refine (structBody_ok_iff _ _ _ _ _ _ _ _ _ _ _ hnd ?_ _).1 h
    rw [structBody_eq _ _ _ _ _ _ _ _ _ _ _ hnd, except_bind_eq_ok] at h
    obtain ⟨ms, hms, _⟩ := h
    rw [seqAll_eq_ok] at hms
    intro name hname
    have : memberOut env (process env n) f d defn ph ser false anc name ∈ ms.map Except.ok := by
      rw [← hms]; exact List.mem_map.2 ⟨name, hname, rfl⟩
    obtain ⟨m, _, hm⟩ := List.mem_map.1 this
    exact memberOut_declares hm.symm
  · rintro ⟨h1, slots, h2, h3, h4⟩
    refine (structBody_ok_iff _ _ _ _ _ _ _ _ _ _ _ hnd ?_ _).2 ⟨h1, slots, h2, h3, h4⟩
    intro name hname
    rw [← h2] at hname
    obtain ⟨x, hx, rfl⟩ := List.mem_map.1 hname
    obtain ⟨g, c, hd, _⟩ := h3 x hx
    exact ⟨g, c, hd⟩

/-- Acceptance by a structure. -/
theorem struct_ok {env : Env} {n : Nat} {c : Common} {defn : List (Str × Field)} {strict : Bool} {ko : List Str}
    (hpre : c.pre = none) (hnd : (if ko = [] then defn.map (·.1) else ko).Nodup) {v w : Val} {ph : Phase} {ser : Bool}
    {anc : List Str} :
    process env (n + 1) (.structure c defn strict ko) v ph ser anc = .ok w ↔
      (v = .none ∧ w = .none ∧ c.nonnull = false) ∨
      ∃ d, v = .dict d ∧
      (strict = true → ∀ e ∈ d, ∃ name ∈ (if ko = [] then defn.map (·.1) else ko), e.1 = .str name) ∧
      ∃ slots : List (Str × Option Val), slots.map (·.1) = (if ko = [] then defn.map (·.1) else ko) ∧
        (∀ x ∈ slots, SlotOk env n defn d ph ser false (ancOr (.structure c defn strict ko) anc) x.1 x.2) ∧
        w = .dict (slotDict slots) := by
  have ho : (if ko.isEmpty then defn.map (·.1) else ko) = (if ko = [] then defn.map (·.1) else ko) := by
    cases ko <;> rfl
  by_cases hv : v = .none
  · subst hv
    rw [process_none_ok rfl]
    simp
  by_cases hl : ∃ d, v = .dict d
  · obtain ⟨d, rfl⟩ := hl
    rw [process_anc]
    show processStructure env (process env n) c defn strict ko false (.dict d) ph ser _ = .ok w ↔ _
    rw [processStructure_dict hpre (ancOr_ne_nil _ _), ho, structBody_ok hnd]
    constructor
    · intro h; exact .inr ⟨d, rfl, h⟩
    · rintro (⟨h, _⟩ | ⟨d', h, h'⟩)
      · cases h
      · cases h; exact h'
  · have hn : isNull (.structure c defn strict ko) v (ancOr (.structure c defn strict ko) anc) = .ok false :=
      isNull_nonEnum rfl (by simp) hv
    constructor
    · intro h
      exfalso
      have h : processStructure env (process env n) c defn strict ko false v ph ser anc = .ok w := h
      unfold processStructure at h
      simp only [hn, except_bind_ok] at h
      cases v <;> first | exact hl ⟨_, rfl⟩ | (cases h; done)
    · rintro (⟨rfl, _⟩ | ⟨l, h, _⟩)
      · exact absurd rfl hv
      · exact absurd ⟨l, h⟩ hl

/-- Acceptance by a polymorphic structure. -/
theorem poly_ok {env : Env} {n : Nat} {c : Common} {disc : Field} {vs : List (Val × List (Str × Field))} {strict : Bool}
    (hpre : c.pre = none) (hnd : ∀ e ∈ vs, (e.2.map (·.1)).Nodup) {v w : Val} {ph : Phase} {ser : Bool}
    {anc : List Str} :
    process env (n + 1) (.poly c disc vs strict []) v ph ser anc = .ok w ↔
      (v = .none ∧ w = .none ∧ c.nonnull = false) ∨
      ∃ d raw id defn, v = .dict d ∧ given d (disc.name.getD []) = some raw ∧ raw ≠ .none ∧
      process env n disc raw ph ser (ancOr (.poly c disc vs strict []) anc ++ ['.' :: disc.name.getD []]) = .ok id ∧
      hashable id = true ∧ variantFor vs id = some defn ∧ defn ≠ [] ∧
      (strict = true → ∀ e ∈ d, ∃ name ∈ defn.map (·.1), e.1 = .str name) ∧
      ∃ slots : List (Str × Option Val), slots.map (·.1) = defn.map (·.1) ∧
        (∀ x ∈ slots, SlotOk env n defn d ph ser false (ancOr (.poly c disc vs strict []) anc) x.1 x.2) ∧
        w = .dict (slotDict slots) := by
  have hmem : ∀ id defn, variantFor vs id = some defn → (defn.map (·.1)).Nodup := by
    intro id defn h
    unfold variantFor at h
    rw [Option.map_eq_some_iff] at h
    obtain ⟨e, h1, rfl⟩ := h
    exact hnd e (List.mem_of_find?_eq_some h1)
  by_cases hv : v = .none
  · subst hv
    rw [process_none_ok rfl]
    simp
  by_cases hl : ∃ d, v = .dict d
  · obtain ⟨d, rfl⟩ := hl
    rw [process_anc]
    show processPoly env (process env n) c disc vs strict [] false (.dict d) ph ser _ = .ok w ↔ _
    rw [processPoly_dict hpre (ancOr_ne_nil _ _)]
    simp only [reduceCtorEq, false_and, false_or]
    constructor
    · intro h
      split at h
      · simp at h
      · rename_i hnn
        rw [except_bind_eq_ok] at h
        obtain ⟨id, hid, h⟩ := h
        split at h
        · simp at h
        · rename_i hh
          split at h
          · simp at h
          · rename_i defn hdf
            split at h
            · simp at h
            · rename_i hne
              rw [structBody_ok (hmem _ _ hdf)] at h
              obtain ⟨h1, h2⟩ := h
              cases hg : given d (disc.name.getD []) with
              | none => rw [hg] at hnn; exact absurd rfl hnn
              | some raw =>
                rw [hg] at hnn hid
                refine ⟨d, raw, id, defn, rfl, hg, ?_, hid, by simpa using hh, hdf, by simpa using hne, h1, h2⟩
                rintro rfl; exact hnn rfl
    · rintro ⟨d', raw, id, defn, hd, hg, hnn, hid, hh, hdf, hne, h1, h2⟩
      cases hd
      simp only [hg, Option.getD_some]
      rw [if_neg (by intro h; exact hnn ((isNone_iff _).1 h)), hid]
      simp only [except_bind_ok, hh, Bool.not_true, Bool.false_eq_true, if_false, hdf]
      rw [if_neg (by simpa using hne)]
      exact (structBody_ok (hmem _ _ hdf)).2 ⟨h1, h2⟩
  · have hn : isNull (.poly c disc vs strict []) v (ancOr (.poly c disc vs strict []) anc) = .ok false :=
      isNull_nonEnum rfl (by simp) hv
    constructor
    · intro h
      exfalso
      have h : processPoly env (process env n) c disc vs strict [] false v ph ser anc = .ok w := h
      unfold processPoly at h
      simp only [hn, except_bind_ok] at h
      cases v <;> first | exact hl ⟨_, rfl⟩ | (cases h; done)
    · rintro (⟨rfl, _⟩ | ⟨l, _, _, _, h, _⟩)
      · exact absurd rfl hv
      · exact absurd ⟨l, h⟩ hl

end Scheme
