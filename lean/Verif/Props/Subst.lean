import Verif.Proof.Subst

/-!
# C121 — a member of a generic type or method has the type that is written, with the arguments in place of the parameters

`replace` is the replacement; `bind ps args` gives the arguments for the parameters.
-/

namespace Verif.Subst

/-! ## Members of generic types -/

/-- The names of a generic type that is used with arguments stand for these. -/
theorem names_partial {hosts : List Host} (ho : Outer hosts) {params : List Nat} {args : List Ty} (hl : params.length ≤ args.length)
    (fuel name : Nat) : typeAt (fuel + 1) hosts params args name = some ((bind params args name).getD .null) :=
  typeAt_outer ho fuel hl name

/-- The type of a member (a field, the result or a parameter of a method): every parameter of the class is replaced by its argument,
in arrays and in the arguments of other types too, however deep.  Partial: the class is not in another class with arguments, and
the type is over the parameters of the class, or just a parameter of the method; see `enclosed_refuted`, `own_array_refuted`. -/
theorem member_partial {hosts : List Host} (ho : Outer hosts) {params : List Nat} {args : List Ty} (hl : params.length ≤ args.length)
    (hg : Given args) {fuel : Nat} {f : Nat → Ty} (hf : ∀ n, typeAt (fuel + 1) hosts params args n = some (f n)) (t : Ty)
    (ht : Over params t ∨ ∃ n, t = .param n) : transformName f t = replace (bind params args) t := by
  have hσ : ∀ n t, bind params args n = some t → t.isNull = false := fun n t h => hg t (bind_mem h)
  have hfn : ∀ n, f n = (bind params args n).getD .null := by
    intro n
    have := hf n
    rw [typeAt_outer ho fuel hl n] at this
    exact (Option.some.inj this).symm
  by_cases hov : Over params t
  · obtain ⟨h1, h2⟩ := transform_over (f := f) hσ (fun n hn => by
      obtain ⟨t, -, h⟩ := bind_isSome params args n hl hn
      exact ⟨t, h, by rw [hfn, h]; rfl⟩) t hov
    unfold transformName
    rw [h1, h2, replace_notNull hσ t h2]
    rfl
  · obtain ⟨n, rfl⟩ := ht.resolve_left hov
    have hn : n ∉ params := hov
    have hb := bind_none params args n hn
    unfold transformName
    simp only [transform, hfn, hb, Option.getD_none, replace]
    rfl

/-- A method has its parameters in order, each with its name and its type replaced; a parameter `T ... items` becomes one parameter for
each argument from that of `T` on. -/
theorem method_partial {hosts : List Host} (ho : Outer hosts) {params : List Nat} {args : List Ty} (hl : params.length ≤ args.length)
    (hg : Given args) {fuel : Nat} {f : Nat → Ty} (hf : ∀ n, typeAt (fuel + 1) hosts params args n = some (f n))
    {packed : Nat → List Ty} (hp : ∀ n, findType hosts n (fuel + 1) params args [] = some (packed n)) (m : Method)
    (hr : Over params m.result ∨ ∃ n, m.result = .param n)
    (hm : ∀ p ∈ m.params, (p.extend = false ∧ (Over params p.ty ∨ ∃ n, p.ty = .param n)) ∨
      (p.extend = true ∧ ∃ i n, p.ty = .param n ∧ params[i]? = some n ∧ n ∉ params.take i)) :
    (transformMethod f packed m).result = replace (bind params args) m.result ∧
    (transformMethod f packed m).params = m.params.flatMap fun p =>
      if p.extend then
        match p.ty with
        | .param n => (args.drop (params.idxOf n)).zipIdx.map fun (t, i) => ⟨i + 1, t, false⟩
        | _ => []
      else [⟨p.name, replace (bind params args) p.ty, false⟩] := by
  refine ⟨member_partial ho hl hg hf _ hr, ?_⟩
  have hsearch : ∀ (ps : List Nat) (as : List Ty) (n : Nat), n ∈ ps → search ps as n = some (as.drop (ps.idxOf n)) := by
    intro ps
    induction ps with
    | nil => intro as n h; cases h
    | cons p ps ih =>
      intro as n h
      simp only [search, List.idxOf_cons]
      by_cases hpn : p = n
      · subst hpn; simp
      · have hb : (p == n) = false := by simpa using hpn
        have hm : n ∈ ps := by
          rcases List.mem_cons.1 h with rfl | h
          · exact absurd rfl hpn
          · exact h
        rw [if_neg hpn, hb, ih _ n hm]
        cases as <;> simp
  have hpk : ∀ n, n ∈ params → packed n = args.drop (params.idxOf n) := by
    intro n hn
    have := hp n
    rw [findType_outer ho] at this
    have := (Option.some.inj this).symm
    rw [this, hsearch params args n hn]
    have : args.length > 0 := by
      exact Nat.lt_of_lt_of_le (List.length_pos_of_mem hn) hl
    simp [this]
  simp only [transformMethod, transformParams]
  generalize m.params = ps at hm
  induction ps with
  | nil => rfl
  | cons p ps ih =>
    simp only [List.flatMap_cons]
    rw [ih (fun q hq => hm q (List.mem_cons_of_mem _ hq))]
    congr 1
    rcases hm p (by simp) with ⟨h1, h2⟩ | ⟨h1, i, n, h2, h3, -⟩
    · simp only [h1, Bool.false_eq_true, if_false]
      rw [member_partial ho hl hg hf p.ty h2]
    · simp only [h1, if_true, h2]
      rw [hpk n (List.mem_of_getElem? h3)]

/-- A class that is in a class with arguments, like `A<int>.B`: the type of any name is looked for without end, whatever its own
parameters are. -/
theorem enclosed_refuted (hosts : List Host) (ps : List Nat) (as : List Ty) (hh : Host.generic ps as ∈ hosts) (fuel : Nat)
    (params : List Nat) (args : List Ty) (name : Nat) : typeAt fuel hosts params args name = none := by
  unfold typeAt
  rw [findType_diverges (fun h => by have := h _ hh; cases this)]
  rfl

/-- `class A<T> { U[] F<U>(List<U> x); }`: in `A<int>` the result of `F` is an array of nothing and `x` a list of nothing, for every
argument and every name `U` that is no parameter of the class. -/
theorem own_array_refuted {hosts : List Host} (ho : Outer hosts) {params : List Nat} {args : List Ty} (hl : params.length ≤ args.length)
    {fuel : Nat} {f : Nat → Ty} (hf : ∀ n, typeAt (fuel + 1) hosts params args n = some (f n)) (u d l : Nat) (hu : u ∉ params) :
    transformName f (.array (.param u) d) = .array .nullType d ∧
    transformName f (.gen l [.param u] .null) = .gen l [.null] .null ∧
    replace (bind params args) (.array (.param u) d) = .array (.param u) d ∧
    replace (bind params args) (.gen l [.param u] .null) = .gen l [.param u] .null := by
  have hb := bind_none params args u hu
  have hfu : f u = .null := by
    have := hf u
    rw [typeAt_outer ho fuel hl u, hb] at this
    exact (Option.some.inj this).symm
  refine ⟨?_, ?_, ?_, ?_⟩
  · simp [transformName, transform, hfu, newArray, Ty.isNull]
  · simp [transformName, transform, transformAll, hfu, Ty.isNull]
  · simp [replace, hb]
  · simp [replace, replaceAll, hb]

/-- A generic type that is in another type: where a member of a generic class has this type, it is in none. -/
theorem host_refuted (f : Nat → Ty) (t h : Nat) (args : List Ty) :
    ∃ args', transformName f (.gen t args (.basic h)) = .gen t args' .null :=
  ⟨transformAll f args, by simp [transformName, transform, Ty.isNull]⟩

/-! ## Generic methods -/

/-- The types of the result and of the parameters of a generic method that is called with type arguments: its parameters are
replaced, then those of its class.  Partial: no type parameter is in an array; see `method_array_refuted`. -/
theorem generic_method_partial {mps : List Nat} {margs : List Ty} (hml : mps.length ≤ margs.length) (hmg : Given margs)
    {hosts : List Host} (ho : Outer hosts) {params : List Nat} {args : List Ty} (hl : params.length ≤ args.length) (hg : Given args)
    {fuel : Nat} {host : Nat → Ty} (hh : ∀ n, typeAt (fuel + 1) hosts params args n = some (host n)) (t : Ty) (ht : Bare t) :
    revise mps margs host t = replace (orElse (bind mps margs) (bind params args)) t := by
  refine revise_bare hml hmg (τ := bind params args) ?_ (fun n t h => hg t (bind_mem h)) t ht
  intro n
  have := hh n
  rw [typeAt_outer ho fuel hl n] at this
  exact (Option.some.inj this).symm

/-- `void F<T>(T[] x)`: in `F<int>` the type of `x` still is `T[]`; and `List<T[]>` stays as it is too. -/
theorem method_array_refuted (mps : List Nat) (margs : List Ty) (host : Nat → Ty) (n d l : Nat) :
    revise mps margs host (.array (.param n) d) = .array (.param n) d ∧
    revise mps margs host (.gen l [.array (.param n) d] .null) = .gen l [.array (.param n) d] .null := by
  constructor <;> simp [revise, hasParams, anyParams]

/-- What it should be: `int[]`. -/
theorem method_array_wrong (d : Nat) :
    revise [7] [.basic 1] (fun _ => .null) (.array (.param 7) d) ≠ replace (bind [7] [.basic 1]) (.array (.param 7) d) := by
  intro h
  simp [revise, replace, bind, List.lookup] at h

/-! ## Non-vacuity -/

/-- `class A<T, K> { Dict<T, List<K>[]> x; }` used as `A<int, string>`. -/
example : ∃ f, (∀ n, typeAt 1 [.plain] [7, 8] [.basic 1, .basic 2] n = some (f n)) ∧
    transformName f (.gen 30 [.param 7, .array (.gen 31 [.param 8] .null) 1] .null) =
      .gen 30 [.basic 1, .array (.gen 31 [.basic 2] .null) 1] .null ∧
    transformName f (.param 9) = .param 9 := by
  have ho : Outer [.plain] := by simp [Outer]
  have hg : Given [.basic 1, .basic 2] := by intro t h; simp at h; rcases h with rfl | rfl <;> rfl
  refine ⟨fun n => (bind [7, 8] [.basic 1, .basic 2] n).getD .null, fun n => typeAt_outer (params := [7, 8]) (args := [.basic 1, .basic 2]) ho 0 (Nat.le_refl 2) n, ?_, ?_⟩
  · rw [member_partial ho (params := [7, 8]) (args := [.basic 1, .basic 2]) (Nat.le_refl 2) hg (fun n => typeAt_outer (params := [7, 8]) (args := [.basic 1, .basic 2]) ho 0 (Nat.le_refl 2) n) _ (.inl (by simp [Over, OverAll]))]
    simp [replace, replaceAll, bind, List.lookup]
  · rw [member_partial ho (params := [7, 8]) (args := [.basic 1, .basic 2]) (Nat.le_refl 2) hg (fun n => typeAt_outer (params := [7, 8]) (args := [.basic 1, .basic 2]) ho 0 (Nat.le_refl 2) n) _ (.inr ⟨9, rfl⟩)]
    simp [replace, bind, List.lookup]

/-- `class A<T, ...K> { T F(T x, K ... items); }` used as `A<int, string, byte>`. -/
example : (transformMethod (fun n => (typeAt 1 [] [7, 8] [.basic 1, .basic 2, .basic 3] n).getD .null)
      (fun n => (findType [] n 1 [7, 8] [.basic 1, .basic 2, .basic 3] []).getD []) ⟨.param 7, [⟨40, .param 7, false⟩, ⟨41, .param 8, true⟩]⟩).params =
    [⟨40, .basic 1, false⟩, ⟨1, .basic 2, false⟩, ⟨2, .basic 3, false⟩] := by
  have hg : Given [.basic 1, .basic 2, .basic 3] := by intro t h; simp at h; rcases h with rfl | rfl | rfl <;> rfl
  have := (method_partial (hosts := []) (by simp [Outer]) (params := [7, 8]) (args := [.basic 1, .basic 2, .basic 3]) (by decide) hg (fuel := 0)
    (f := fun n => (typeAt 1 [] [7, 8] [.basic 1, .basic 2, .basic 3] n).getD .null) (fun n => by rw [typeAt_outer (by simp [Outer]) 0 (by decide)]; rfl)
    (packed := fun n => (findType [] n 1 [7, 8] [.basic 1, .basic 2, .basic 3] []).getD []) (fun n => by rw [findType_outer (by simp [Outer])]; rfl)
    ⟨.param 7, [⟨40, .param 7, false⟩, ⟨41, .param 8, true⟩]⟩ (.inl (by simp [Over])) (by
      intro p hp
      simp only [List.mem_cons, List.not_mem_nil, or_false] at hp
      rcases hp with rfl | rfl
      · exact .inl ⟨rfl, .inl (by simp [Over])⟩
      · exact .inr ⟨rfl, 1, 8, rfl, rfl, by simp⟩)).2
  rw [this]
  simp [replace, bind, List.lookup, List.idxOf_cons, List.zipIdx]

/-- `class A<T> { List<U> F<U>(T x); }` called as `F<byte>` on `A<int>`. -/
example : revise [9] [.basic 3] (fun n => (bind [7] [.basic 1] n).getD .null) (.gen 31 [.param 9, .param 7] .null) =
    .gen 31 [.basic 3, .basic 1] .null := by
  rw [generic_method_partial (mps := [9]) (margs := [.basic 3]) (hosts := []) (Nat.le_refl 1) (by intro t h; simp at h; subst h; rfl) (by simp [Outer]) (params := [7]) (args := [.basic 1])
    (Nat.le_refl 1) (by intro t h; simp at h; subst h; rfl) (fuel := 0) (fun n => typeAt_outer (params := [7]) (args := [.basic 1]) (by simp [Outer]) 0 (Nat.le_refl 1) n) _ (by simp [Bare, BareAll, Closed])]
  simp [replace, replaceAll, orElse, bind, List.lookup]

end Verif.Subst
