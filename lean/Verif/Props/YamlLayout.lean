import Verif.Props.Yaml

/-! How sequences are laid out in YAML (part of C44). -/

namespace Scheme

/-- The text of null, a boolean or a number: what is written within brackets. -/
inductive Scalar (env : Env) : Val → Str → Prop
  | null : Scalar env .none c!"null"
  | yes : Scalar env (.bool true) c!"true"
  | no : Scalar env (.bool false) c!"false"
  | int (i : Int) : Scalar env (.int i) (intStr i)
  | float (x : PyFloat) : Scalar env (.float x) (env.str (.float x))

/-- The texts of several. -/
inductive Scalars (env : Env) : List Val → List Str → Prop
  | nil : Scalars env [] []
  | cons {v : Val} {t : Str} {l : List Val} {ts : List Str} (h : Scalar env v t) (r : Scalars env l ts) :
      Scalars env (v :: l) (t :: ts)

variable {env : Env} {wrap : Str → Str → List Str}

theorem scalar_simple {v : Val} {t : Str} (h : Scalar env v t) : yamlSimple v = true := by cases h <;> rfl

theorem scalar_of_simple {v : Val} (h : yamlSimple v = true) : ∃ t, Scalar env v t := by
  cases v with
  | none => exact ⟨_, .null⟩
  | bool b => cases b; exact ⟨_, .no⟩; exact ⟨_, .yes⟩
  | int i => exact ⟨_, .int i⟩
  | float x => exact ⟨_, .float x⟩
  | _ => exact nomatch h

theorem scalar_value {v : Val} {t : Str} (h : Scalar env v t) (n : Nat) : yamlValue env wrap v n = .ok (.text t) := by
  cases h <;> simp [yamlValue]

theorem scalars_simple {l : List Val} {ts : List Str} (h : Scalars env l ts) : l.all yamlSimple = true := by
  induction h with
  | nil => rfl
  | cons h1 _ ih => simp only [List.all_cons, scalar_simple h1, ih, Bool.and_self]

theorem flow_scalars {l : List Val} {ts : List Str} (h : Scalars env l ts) (n : Nat) :
    yamlFlow (yamlValueL env wrap l n) = .ok ts := by
  induction h with
  | nil => rfl
  | cons h1 _ ih =>
    simp only [yamlValueL, yamlFlow, scalar_value h1, ih]
    rfl

/-- C44. A sequence of nulls, booleans and numbers is written on one line. -/
theorem C44_flow {l : List Val} {ts : List Str} (h : Scalars env l ts) :
    yamlSerialize env wrap (.list l) = .ok (c!"[" ++ joinStr c!", " ts ++ c!"]") ∧
    yamlSerialize env wrap (.tuple l) = .ok (c!"[" ++ joinStr c!", " ts ++ c!"]") := by
  have hf := flow_scalars (wrap := wrap) h 0
  cases h with
  | nil => exact ⟨rfl, rfl⟩
  | @cons a b l₁ l₂ h1 h2 =>
    have ha : (a :: l₁).all yamlSimple = true := scalars_simple (.cons h1 h2)
    have he : (a :: l₁).isEmpty = false := rfl
    simp only [yamlSerialize, yamlValue, he, ha, hf]
    exact ⟨rfl, rfl⟩

theorem items_begin {level : Nat} {o : Except Exn YamlOut} {os : List (Except Exn YamlOut)} {ls : List Str}
    (h : yamlItems env level (o :: os) = .ok ls) : ∃ r rs, ls = (yamlPad level ++ c!"- " ++ r) :: rs := by
  simp only [yamlItems] at h
  obtain ⟨out, h1, h⟩ := except_bind_eq_ok.mp h
  obtain ⟨a, h2, h⟩ := except_bind_eq_ok.mp h
  obtain ⟨b, h3, h⟩ := except_bind_eq_ok.mp h
  cases h
  unfold yamlItem at h2
  split at h2
  · cases h2; exact ⟨_, _, rfl⟩
  · exact nomatch h2
  · cases h2; exact ⟨_, _, rfl⟩

/-- C44. Any other sequence is written with a dash for each element. -/
theorem C44_block {l : List Val} {text : Str} (hne : l ≠ []) (h : ∃ v ∈ l, ∀ t, ¬ Scalar env v t)
    (hs : yamlSerialize env wrap (.list l) = .ok text ∨ yamlSerialize env wrap (.tuple l) = .ok text) :
    ∃ r, text = c!"- " ++ r := by
  have hall : l.all yamlSimple = false := by
    obtain ⟨v, hv, hn⟩ := h
    cases ha : l.all yamlSimple with
    | false => rfl
    | true =>
      obtain ⟨t, ht⟩ := scalar_of_simple (env := env) (List.all_eq_true.mp ha v hv)
      exact absurd ht (hn t)
  obtain ⟨a, r, rfl⟩ := List.exists_cons_of_ne_nil hne
  have hs' : ((yamlItems env 0 (yamlValueL env wrap (a :: r) 1)).map YamlOut.lines).map (fun
      | YamlOut.text t => t
      | .lines l => joinStr c!"\n" l) = .ok text := by
    have he : (a :: r).isEmpty = false := rfl
    rcases hs with hs | hs <;> simp only [yamlSerialize, yamlValue, he, hall] at hs <;> exact hs
  cases hi : yamlItems env 0 (yamlValueL env wrap (a :: r) 1) with
  | error e => rw [hi] at hs'; exact nomatch hs'
  | ok ls =>
    rw [hi] at hs'
    rw [yamlValueL] at hi
    obtain ⟨x, xs, rfl⟩ := items_begin hi
    cases hs'
    cases xs with
    | nil => exact ⟨x, by simp [yamlPad, joinStr]⟩
    | cons y ys => exact ⟨x ++ c!"\n" ++ joinStr c!"\n" (y :: ys), by simp [yamlPad, joinStr]⟩

example : yamlSerialize Ex.env (fun _ _ => []) (.list [.none, .bool true, .int 3]) = .ok c!"[null, true, 3]" :=
  (C44_flow (.cons .null (.cons .yes (.cons (.int 3) .nil)))).1

example : yamlSerialize Ex.env (fun _ _ => []) (.list [.none, .str c!"a"]) = .ok c!"- null\n- a" ∧
    ∃ v ∈ [Val.none, .str c!"a"], ∀ t, ¬ Scalar Ex.env v t :=
  ⟨rfl, _, List.mem_cons_of_mem _ List.mem_cons_self, fun _ h => nomatch h⟩

end Scheme
