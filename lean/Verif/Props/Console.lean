import Verif.Spec.Console
import Verif.Proof.Fold
import Verif.Proof.Expr
import Verif.Props.Arr

/-!
# C111: what a program writes to the console, and the lengths of its arrays
-/

namespace Verif.Console

open Verif.Fold Verif.Fold.Spec Verif.Expr Verif.Console.Spec

/-! ## Text -/

theorem number_append (xs : List Nat) (d : Nat) : number (xs ++ [d]) = 10 * number xs + d := by
  simp [number, List.foldl_append]

theorem digits_spec (n : Nat) : ∃ ds : List Nat, ds ≠ [] ∧ (∀ d ∈ ds, d < 10) ∧ (ds.head? = some 0 → ds = [0]) ∧
    number ds = n ∧ digits n = ds.map fun (d : Nat) => 48 + (d : Int) := by
  induction n using Nat.strongRecOn with
  | ind n ih =>
    by_cases h : n < 10
    · refine ⟨[n], by simp, by simpa using h, by simp, by simp [number], ?_⟩
      rw [digits, dif_pos h]; rfl
    · obtain ⟨ds, h1, h2, h3, h4, h5⟩ := ih (n / 10) (by omega)
      refine ⟨ds ++ [n % 10], by simp, ?_, ?_, ?_, ?_⟩
      · intro d hd
        rcases List.mem_append.1 hd with hd | hd
        · exact h2 d hd
        · simp at hd; omega
      · intro hh
        have := h3 (by cases ds with | nil => exact absurd rfl h1 | cons x xs => simpa using hh)
        subst this
        simp [number] at h4
        omega
      · rw [number_append, h4]; omega
      · rw [digits, dif_neg h, h5]; simp

/-- The stream writes the numeral. -/
theorem decimal_numeral (v : Int) : Numeral v (decimal v) := by
  obtain ⟨ds, h1, h2, h3, h4, h5⟩ := digits_spec v.natAbs
  refine ⟨ds, h1, h2, h3, h4, ?_⟩
  unfold decimal
  split <;> simp [h5]

theorem number_zero {ds : List Nat} (hd : ∀ d ∈ ds, d < 10) : ∀ acc, acc < ds.foldl (fun a d => 10 * a + d) acc + 1 := by
  induction ds with
  | nil => intro acc; simp
  | cons d ds ih =>
    intro acc
    have := ih (fun x hx => hd x (List.mem_cons_of_mem _ hx)) (10 * acc + d)
    simp only [List.foldl_cons]; omega

/-- Canonical digits are determined by their number. -/
theorem digits_unique (n : Nat) : ∀ ds : List Nat, ds ≠ [] → (∀ d ∈ ds, d < 10) → (ds.head? = some 0 → ds = [0]) →
    number ds = n → digits n = ds.map fun (d : Nat) => 48 + (d : Int) := by
  induction n using Nat.strongRecOn with
  | ind n ih =>
    intro ds h1 h2 h3 h4
    rcases List.eq_nil_or_concat ds with rfl | ⟨xs, d, rfl⟩
    · exact absurd rfl h1
    rw [List.concat_eq_append, number_append] at *
    have hd : d < 10 := h2 d (by simp)
    rw [digits]
    by_cases hx : xs = []
    · subst hx
      have : n = d := by simp [number] at h4; omega
      subst this
      rw [dif_pos hd]; rfl
    · have hne : number xs ≠ 0 := by
        intro h0
        cases xs with
        | nil => exact hx rfl
        | cons x xs =>
          have := number_zero (ds := xs) (fun y hy => h2 y (by simp [hy])) (10 * 0 + x)
          simp only [number, List.foldl_cons] at h0
          have hx0 : x = 0 := by omega
          subst hx0
          have := h3 (by simp)
          simp at this
      have hn : ¬ n < 10 := by omega
      rw [dif_neg hn, ih (n / 10) (by omega) xs hx (fun y hy => h2 y (by simp [hy])) ?_ (by omega)]
      · have : n % 10 = d := by omega
        simp [this]
      · intro hh
        have := h3 (by cases xs with | nil => exact absurd rfl hx | cons x xs => simpa using hh)
        cases xs with
        | nil => exact absurd rfl hx
        | cons x xs => simp at this

/-- A number has one numeral. -/
theorem numeral_unique {v : Int} {txt : List Int} (h : Numeral v txt) : txt = decimal v := by
  obtain ⟨ds, h1, h2, h3, h4, rfl⟩ := h
  have := digits_unique v.natAbs ds h1 h2 h3 h4
  unfold decimal
  split <;> simp [this]

theorem numeral_ascii {v : Int} {txt : List Int} (h : Numeral v txt) : ∀ c ∈ txt, 0 ≤ c ∧ c < 128 := by
  obtain ⟨ds, h1, h2, h3, h4, rfl⟩ := h
  intro c hc
  rcases List.mem_append.1 hc with hc | hc
  · split at hc <;> simp at hc
    omega
  · obtain ⟨d, hd, rfl⟩ := List.mem_map.1 hc
    have := h2 d hd
    omega

/-! ## The stream -/

theorem puts_good (enc : Int → Bool) : ∀ (cs : List Int) (o : Stream), o.bad = false → (∀ c ∈ cs, enc c = true) →
    o.puts enc cs = ⟨o.chars ++ cs, false⟩ := by
  intro cs
  induction cs with
  | nil => intro o h _; cases o; simp_all [Stream.puts]
  | cons c cs ih =>
    intro o h hc
    rw [Stream.puts, if_neg (by simp [h]), if_pos (hc c (by simp)), ih { o with chars := o.chars ++ [c] } h (fun x hx => hc x (by simp [hx]))]
    simp

theorem puts_bad (enc : Int → Bool) (cs : List Int) (o : Stream) (h : o.bad = true) : o.puts enc cs = o := by
  cases cs with
  | nil => rfl
  | cons c cs => rw [Stream.puts, if_pos h]

/-! ## The internal call -/

theorem internals_agree : ∀ x ∈ internals, ∀ y ∈ internals, getLibfunc x.1 = getLibfunc y.1 → x.2 = y.2 := by
  decide +kernel

theorem internals_found : ∀ x ∈ internals, internals.lookup x.1 = some x.2 ∧ (getLibfunc x.1).isSome = true := by
  decide +kernel

theorem call_eq (w : World) (junk : Nat) {x : String × List VT × VT} (hx : x ∈ internals) {f : Func}
    (hf : getLibfunc x.1 = some f) {s : Machine} (hc : CacheOk s) (ht : (sizes x.2.1 x.2.2).1 ≤ s.top) {r : Mem × Stream}
    (hr : apply w junk (8 * (s.top - (sizes x.2.1 x.2.2).1)) s.mem s.out f = some r) :
    ∃ s', call w junk x.1 x.2.1 x.2.2 s = some s' ∧ CacheOk s' ∧ s'.mem = r.1 ∧ s'.out = r.2 ∧
      s'.top = s.top - (sizes x.2.1 x.2.2).1 + (sizes x.2.1 x.2.2).2 := by
  have hz : (s.cache f).getD (sizes x.2.1 x.2.2) = sizes x.2.1 x.2.2 := by
    cases h : s.cache f with
    | none => rfl
    | some z => exact hc f z h x hx hf
  refine ⟨⟨s.top - (sizes x.2.1 x.2.2).1 + (sizes x.2.1 x.2.2).2, r.1, r.2,
    fun g => if g = f then some (sizes x.2.1 x.2.2) else s.cache g⟩, ?_, ?_, rfl, rfl, rfl⟩
  · rw [call, hf]
    simp only [Option.bind_eq_bind, Option.bind_some, hz, if_neg (Nat.not_lt.2 ht), hr]
  · intro g z hg y hy hgy
    dsimp only at hg
    by_cases hgf : g = f
    · subst hgf
      rw [if_pos rfl, Option.some.injEq] at hg
      rw [← hg, internals_agree x hx y hy (by rw [hf, hgy])]
    · rw [if_neg hgf] at hg
      exact hc g z hg y hy hgy

/-- A value that fits is read back from the unit it was pushed to. -/
theorem read_pushed {t : VT} (ht : t.num = true) {v : Int} (hv : Value t v) (mem : Mem) (a junk : Nat) :
    readAt t (store mem a 8 (enc t v + 256 ^ bytes t * junk)) a = v := by
  by_cases hc : t = .char
  · subst hc
    have hv' : Value .int32 v := hv
    exact readAt_push (t := .int32) rfl (conv_id rfl hv') mem a junk
  · refine readAt_push ?_ (conv_id ht hv) mem a junk
    cases t <;> simp_all [Expr.Spec.plain, VT.num, VT.isInt]

theorem internal_one (w : World) (junk : Nat) {name : String} {t : VT} (hx : (name, [t], VT.void) ∈ internals) {f : Func}
    (hf : getLibfunc name = some f) {s : Machine} (hc : CacheOk s) {v : Int} {o : Stream}
    (hr : apply w junk (8 * s.top) (pushV junk (word t) v s).mem s.out f = some ((pushV junk (word t) v s).mem, o)) :
    ∃ s', internal w junk name [v] s = some s' ∧ CacheOk s' ∧ SameStack s s' ∧ s'.out = o := by
  have hu : t ≠ .void := by
    have : ∀ x ∈ internals, x.2.1 ≠ [VT.void] := by decide +kernel
    intro h; subst h
    exact this _ hx rfl
  have hz : sizes [t] .void = (1, 0) := by simp [sizes, unitsOf, hu]
  obtain ⟨s', h1, h2, h3, h4, h5⟩ := call_eq w junk hx hf (s := pushV junk (word t) v s) hc (by rw [hz]; simp [pushV]) (r := _)
    (by rw [hz]; simpa [pushV] using hr)
  refine ⟨s', ?_, h2, ⟨?_, ?_⟩, h4⟩
  · rw [internal, (internals_found _ hx).1]
    simpa [pushAll] using h1
  · rw [h5, hz]; simp [pushV]
  · intro x hx
    rw [h3]
    exact store_out (by omega)

/-! ## The methods of `Console` -/

theorem good_ascii {w : World} (hw : Ok w) {cs : List Int} (h : ∀ c ∈ cs, 0 ≤ c ∧ c < 128) : ∀ c ∈ cs, w.enc c = true :=
  fun c hc => hw.ascii c (h c hc).1 (h c hc).2

/-- Writing a string. -/
theorem string_one {w : World} (hw : Ok w) (junk : Nat) (line : Bool) {name : String}
    (hx : (name, [VT.string], VT.void) ∈ internals) (hf : getLibfunc name = some (.writeString line)) {s : Machine}
    (hc : CacheOk s) (ho : s.out.bad = false) {v : Int} (h0 : 0 < v) (h1 : v < 2 ^ 64) {txt : List Int}
    (hs : w.strs v.toNat = some txt) (hn : 0 ∉ txt) (he : ∀ c ∈ txt, w.enc c = true) :
    ∃ s', internal w junk name [v] s = some s' ∧ CacheOk s' ∧ SameStack s s' ∧
      s'.out = ⟨s.out.chars ++ (txt ++ if line then [10] else []), false⟩ := by
  refine internal_one w junk hx hf hc ?_
  have hv : Value .uint64 v := by simp only [Value, lo, hi]; omega
  have hread := read_pushed (t := .uint64) rfl hv s.mem (8 * s.top) junk
  have htake : txt.takeWhile (· != 0) = txt := by
    clear hs he
    induction txt with
    | nil => rfl
    | cons c cs ih =>
      have : c ≠ 0 := fun h => hn (by simp [h])
      rw [List.takeWhile_cons_of_pos (by simpa using this), ih (fun h => hn (by simp [h]))]
  simp only [apply, pushV, word, true_or, if_true, hread, hs]
  rw [if_neg (by omega)]
  simp only [Option.bind_eq_bind, Option.bind_some, htake]
  rw [puts_good _ _ _ ho he]
  cases line
  · simp
  · rw [if_pos rfl, puts_good _ [newline] _ rfl (good_ascii hw (by simp [newline]))]
    simp [newline]

/-- Writing an integer or a character. -/
theorem value_one {w : World} (hw : Ok w) (junk : Nat) (line : Bool) {name : String} {t : VT} (ht : t.num = true)
    (hx : (name, [t], VT.void) ∈ internals) (hf : getLibfunc name = some (.write t line)) {s : Machine}
    (hc : CacheOk s) (ho : s.out.bad = false) {v : Int} (hv : Value t v) {txt : List Int}
    (htxt : txt = if t = .char then [v] else decimal v) (he : ∀ c ∈ txt, w.enc c = true) :
    ∃ s', internal w junk name [v] s = some s' ∧ CacheOk s' ∧ SameStack s s' ∧
      s'.out = ⟨s.out.chars ++ (txt ++ if endsLine t line then [10] else []), false⟩ := by
  refine internal_one w junk hx hf hc ?_
  have hread := read_pushed ht hv s.mem (8 * s.top) junk
  have hword : word t = t := by cases t <;> simp_all [word, VT.num, VT.isInt]
  simp only [apply, pushV, hword, hread]
  rw [← htxt, puts_good _ _ _ ho he]
  cases endsLine t line
  · simp
  · rw [if_pos rfl, puts_good _ [newline] _ rfl (good_ascii hw (by simp [newline]))]
    simp [newline]

theorem const_one {w : World} (hw : Ok w) (junk : Nat) {s : Machine} (hc : CacheOk s) (ho : s.out.bad = false) (txt : List Int)
    (hm : txt ∈ constants) :
    ∃ s', internal w junk "Console_WriteString" [(w.lit txt : Int)] s = some s' ∧ CacheOk s' ∧ SameStack s s' ∧
      s'.out = ⟨s.out.chars ++ txt, false⟩ := by
  obtain ⟨h1, h2, h3⟩ := hw.lit txt hm
  have ha : ∀ c ∈ txt, 0 < c ∧ c < 128 := by clear h1 h2 h3; revert txt; decide
  obtain ⟨s', g⟩ := string_one hw junk false (name := "Console_WriteString") (by decide +kernel) rfl hc ho
    (v := (w.lit txt : Int)) (by omega) (by omega) (txt := txt) (by simpa using h3)
    (fun h => by have := ha 0 h; omega) (good_ascii hw fun c hc => by have := ha c hc; omega)
  exact ⟨s', by simpa using g⟩

theorem body_one {w : World} {junk : Nat} {m : Meth} {f : String} {x : Arg} (hb : body m = some [(f, x)]) {v : Int}
    {s s' : Machine} (h : internal w junk f [argOf w v x] s = some s') : console w junk m v s = some s' := by
  simp [console, hb, runBody, h]

/-- The internal methods of the overloads for integers. -/
theorem int_names (t : VT) (ht : t.isInt = true) (line : Bool) : ∃ name,
    body (if line then .writeLine t else .write t) = some [(name, .value)] ∧ (name, [t], VT.void) ∈ internals ∧
      getLibfunc name = some (.write t line) := by
  cases t <;> simp [VT.isInt] at ht <;> cases line <;> exact ⟨_, rfl, by decide +kernel, rfl⟩

theorem int_one {w : World} (hw : Ok w) (junk : Nat) {t : VT} (ht : t.isInt = true) (line : Bool) {s : Machine}
    (hc : CacheOk s) (ho : s.out.bad = false) {v : Int} (hv : Value t v) {txt : List Int} (hn : Numeral v txt) :
    ∃ s', console w junk (if line then .writeLine t else .write t) v s = some s' ∧ CacheOk s' ∧ SameStack s s' ∧
      s'.out = ⟨s.out.chars ++ (txt ++ if endsLine t line then [10] else []), false⟩ := by
  obtain ⟨name, h1, h2, h3⟩ := int_names t ht line
  have hch : t ≠ .char := by rintro rfl; simp [VT.isInt] at ht
  obtain ⟨s', g⟩ := value_one hw junk line (by simp [VT.num, ht]) h2 h3 hc ho hv
    (txt := txt) (by rw [if_neg hch]; exact numeral_unique hn) (good_ascii hw (numeral_ascii hn))
  exact ⟨s', body_one h1 g.1, g.2⟩

/-- What an integer looks like. -/
theorem looks_int {w : World} {t : VT} (ht : t.isInt = true) {v : Int} {txt : List Int} (h : Looks w t v txt) :
    Value t v ∧ Numeral v txt := by
  cases t <;> simp [VT.isInt] at ht <;> exact h

/-- **C111**, partial: a call of `Write` or `WriteLine` writes what its argument looks like, and a line end for `WriteLine`,
and leaves the stack as it was — when the stream can encode the characters, and no character was lost before.

Missing for the full property: lines of `UInt64`, of null strings and of `Boolean` (`uint64_line_refuted`,
`null_line_refuted`, `boolean_line`), strings with a character 0 (`nul_refuted`), characters that the locale "C" cannot encode
(`lost_refuted`), `Single` and `Double`. -/
theorem console_partial {w : World} (hw : Ok w) (junk : Nat) {m : Meth} {v : Int} {txt : List Int} (hs : Shows w m v txt)
    (hp : plainCall (m, v)) (he : ∀ c ∈ txt, w.enc c = true) {s : Machine} (hc : CacheOk s) (ho : s.out.bad = false) :
    ∃ s', console w junk m v s = some s' ∧ CacheOk s' ∧ SameStack s s' ∧ s'.out = ⟨s.out.chars ++ txt, false⟩ := by
  cases hs with
  | newline =>
    obtain ⟨s', h1, h2⟩ := const_one hw junk hc ho [10] (by decide)
    exact ⟨s', body_one rfl h1, h2⟩
  | @write t _ _ hl =>
    cases t with
    | string =>
      obtain ⟨h0, h1, ⟨rfl, rfl⟩ | ⟨hv, hstr, hn⟩⟩ := hl
      · obtain ⟨s', g1, g2, g3, g4⟩ := internal_one w junk (name := "Console_WriteString") (t := .string) (by decide +kernel) rfl hc
          (v := 0) (o := s.out) (by
            have := read_pushed (t := .uint64) rfl (v := 0) (by simp [Value, lo, hi]) s.mem (8 * s.top) junk
            simp [apply, pushV, word, this])
        refine ⟨s', body_one rfl g1, g2, g3, ?_⟩
        rw [g4]
        cases h : s.out; simp_all
      · obtain ⟨s', g⟩ := string_one hw junk false (name := "Console_WriteString") (by decide +kernel) rfl hc ho (v := v)
          (by omega) h1 hstr hn he
        exact ⟨s', body_one rfl g.1, by simpa using g.2⟩
    | bool =>
      rcases hl with ⟨rfl, rfl⟩ | ⟨rfl, rfl⟩
      · obtain ⟨s', h1, h2⟩ := const_one hw junk hc ho trueText (by decide)
        exact ⟨s', body_one rfl (by simpa [argOf] using h1), h2⟩
      · obtain ⟨s', h1, h2⟩ := const_one hw junk hc ho falseText (by decide)
        exact ⟨s', body_one rfl (by simpa [argOf] using h1), h2⟩
    | char =>
      obtain ⟨s', g⟩ := value_one hw junk false (name := "Console_WriteChar") (t := .char) rfl (by decide +kernel) rfl hc ho
        hl.1 hl.2 he
      exact ⟨s', body_one rfl g.1, by simpa [endsLine] using g.2⟩
    | int8 | uint8 | int16 | uint16 | int32 | uint32 | int64 | uint64 =>
      obtain ⟨h1, h2⟩ := looks_int rfl hl
      obtain ⟨s', g⟩ := int_one hw junk rfl false hc ho h1 h2
      exact ⟨s', by simpa [endsLine] using g⟩
    | _ => exact absurd hl (by simp [Looks])
  | @line t _ txt hl =>
    cases t with
    | string =>
      obtain ⟨h0, h1, ⟨rfl, rfl⟩ | ⟨hv, hstr, hn⟩⟩ := hl
      · exact absurd rfl hp
      · obtain ⟨s', g⟩ := string_one hw junk true (name := "Console_WriteStringLine") (by decide +kernel) rfl hc ho (v := v)
          (by omega) h1 hstr hn (fun c h => he c (by simp [h]))
        exact ⟨s', body_one rfl g.1, by simpa using g.2⟩
    | char =>
      obtain ⟨s', g⟩ := value_one hw junk true (name := "Console_WriteCharLine") (t := .char) rfl (by decide +kernel) rfl hc ho
        hl.1 hl.2 (fun c h => he c (by simp [h]))
      exact ⟨s', body_one rfl g.1, by simpa [endsLine] using g.2⟩
    | int8 | uint8 | int16 | uint16 | int32 | uint32 | int64 =>
      obtain ⟨h1, h2⟩ := looks_int rfl hl
      obtain ⟨s', g⟩ := int_one hw junk rfl true hc ho h1 h2
      exact ⟨s', by simpa [endsLine] using g⟩
    | uint64 | bool => exact absurd hp (by simp [plainCall])
    | _ => exact absurd hl (by simp [Looks])

/-- **C111**, partial: a program's calls write their texts one behind the other, whatever was written before. -/
theorem consoles_partial {w : World} (hw : Ok w) (junk : Nat) {calls : List (Meth × Int)} {txt : List Int}
    (h : ShowsAll w calls txt) (hp : ∀ c ∈ calls, plainCall c) (he : ∀ c ∈ txt, w.enc c = true) {s : Machine}
    (hc : CacheOk s) (ho : s.out.bad = false) :
    ∃ s', consoles w junk calls s = some s' ∧ SameStack s s' ∧ s'.out = ⟨s.out.chars ++ txt, false⟩ := by
  induction h generalizing s with
  | nil =>
    refine ⟨s, rfl, ⟨rfl, fun _ _ => rfl⟩, ?_⟩
    cases h : s.out; simp_all
  | @cons m v txt rest more h1 h2 ih =>
    obtain ⟨s1, g1, g2, g3, g4⟩ := console_partial hw junk h1 (hp _ (by simp)) (fun c h => he c (by simp [h])) hc ho
    obtain ⟨s2, k1, k2, k3⟩ := ih (fun c h => hp c (by simp [h])) (fun c h => he c (by simp [h])) g2 (by rw [g4])
    refine ⟨s2, by simp [consoles, g1, k1], ⟨by rw [k2.1, g3.1], fun x hx => ?_⟩, ?_⟩
    · rw [k2.2 x (by rw [g3.1]; exact hx), g3.2 x hx]
    · rw [k3, g4]; simp

/-- **C111**: before the first call no command was made. -/
theorem start_ok (top : Nat) (mem : Mem) (o : Stream) : CacheOk ⟨top, mem, o, fun _ => none⟩ := by
  intro f z h; simp at h

/-! ## What is written otherwise -/

/-- **C111**, refuted for `WriteLine(UInt64)`: there is no line end. -/
theorem uint64_line_refuted {w : World} (hw : Ok w) (junk : Nat) {v : Int} {txt : List Int} (hv : Value .uint64 v)
    (hn : Numeral v txt) {s : Machine} (hc : CacheOk s) (ho : s.out.bad = false) :
    ∃ s', console w junk (.writeLine .uint64) v s = some s' ∧ s'.out = ⟨s.out.chars ++ txt, false⟩ := by
  obtain ⟨s', g⟩ := int_one hw junk (t := .uint64) rfl true hc ho hv hn
  exact ⟨s', g.1, by simpa [endsLine] using g.2.2.2⟩

/-- **C111**, refuted for `WriteLine(null)`: nothing is written, not even the line end. -/
theorem null_line_refuted (w : World) (junk : Nat) {s : Machine} (hc : CacheOk s) :
    ∃ s', console w junk (.writeLine .string) 0 s = some s' ∧ s'.out = s.out := by
  obtain ⟨s', g1, g2, g3, g4⟩ := internal_one w junk (name := "Console_WriteStringLine") (t := .string) (by decide +kernel) rfl hc
    (v := 0) (o := s.out) (by
      have := read_pushed (t := .uint64) rfl (v := 0) (by simp [Value, lo, hi]) s.mem (8 * s.top) junk
      simp [apply, pushV, word, this])
  exact ⟨s', body_one rfl g1, g4⟩

/-- **C111**: a line of a `Boolean` ends with two characters, other lines with one. -/
theorem boolean_line {w : World} (hw : Ok w) (junk : Nat) {v : Int} {txt : List Int} (hl : Looks w .bool v txt) {s : Machine}
    (hc : CacheOk s) (ho : s.out.bad = false) :
    ∃ s', console w junk (.writeLine .bool) v s = some s' ∧ CacheOk s' ∧ SameStack s s' ∧
      s'.out = ⟨s.out.chars ++ txt ++ [13, 10], false⟩ := by
  have hfirst : ∃ s', internal w junk "Console_WriteString" [argOf w v .toStr] s = some s' ∧ CacheOk s' ∧ SameStack s s' ∧
      s'.out = ⟨s.out.chars ++ txt, false⟩ := by
    rcases hl with ⟨rfl, rfl⟩ | ⟨rfl, rfl⟩
    · obtain ⟨s', h1, h2⟩ := const_one hw junk hc ho trueText (by decide)
      exact ⟨s', by simpa [argOf] using h1, h2⟩
    · obtain ⟨s', h1, h2⟩ := const_one hw junk hc ho falseText (by decide)
      exact ⟨s', by simpa [argOf] using h1, h2⟩
  obtain ⟨s1, g1, g2, g3, g4⟩ := hfirst
  obtain ⟨s2, k1, k2, k3, k4⟩ := const_one hw junk g2 (by rw [g4]) crlf (by decide)
  have k1' : internal w junk "Console_WriteString" [argOf w v (.text crlf)] s1 = some s2 := k1
  refine ⟨s2, by simp [console, body, runBody, g1, k1'], k2, ⟨by rw [k3.1, g3.1], fun x hx => ?_⟩, ?_⟩
  · rw [k3.2 x (by rw [g3.1]; exact hx), g3.2 x hx]
  · rw [k4, g4]; simp [crlf]

/-- **C111**, refuted for strings with a character 0: what is behind it is not written. -/
theorem nul_refuted {w : World} (junk : Nat) {a b : List Int} (ha : 0 ∉ a) (hea : ∀ c ∈ a, w.enc c = true)
    {v : Int} (h0 : 0 < v) (h1 : v < 2 ^ 64) (hs : w.strs v.toNat = some (a ++ 0 :: b)) {s : Machine} (hc : CacheOk s)
    (ho : s.out.bad = false) :
    ∃ s', console w junk (.write .string) v s = some s' ∧ s'.out = ⟨s.out.chars ++ a, false⟩ := by
  have htake : (a ++ 0 :: b).takeWhile (· != 0) = a := by
    clear hs hea
    induction a with
    | nil => rfl
    | cons c cs ih =>
      have : c ≠ 0 := fun h => ha (by simp [h])
      rw [List.cons_append, List.takeWhile_cons_of_pos (by simpa using this), ih (fun h => ha (by simp [h]))]
  have hread := read_pushed (t := .uint64) rfl (v := v) (by simp only [Value, lo, hi]; omega) s.mem (8 * s.top) junk
  obtain ⟨s', g1, g2, g3, g4⟩ := internal_one w junk (name := "Console_WriteString") (t := .string) (by decide +kernel) rfl hc
    (v := v) (o := ⟨s.out.chars ++ a, false⟩) (by
      simp only [apply, pushV, word, true_or, if_true, hread, hs]
      rw [if_neg (by omega)]
      simp only [Option.bind_eq_bind, Option.bind_some, htake]
      rw [puts_good _ _ _ ho hea]; simp)
  exact ⟨s', body_one rfl g1, g4⟩

theorem apply_bad {w : World} {junk a : Nat} {mem : Mem} {o : Stream} {f : Func} {r : Mem × Stream} (ho : o.bad = true)
    (h : apply w junk a mem o f = some r) : r.2 = o := by
  cases f with
  | writeString line =>
    simp only [apply] at h
    split at h
    · simp at h; rw [← h]
    · cases hs : w.strs (readAt .uint64 mem a).toNat with
      | none => simp [hs] at h
      | some x =>
        simp only [hs, Option.bind_eq_bind, Option.bind_some, puts_bad w.enc _ _ ho, Option.some.injEq, ite_self] at h
        rw [← h]
  | write t line =>
    simp only [apply, puts_bad w.enc _ _ ho, Option.some.injEq, ite_self] at h
    rw [← h]
  | rank | length | lengthOfDimension =>
    simp only [apply, Option.bind_eq_bind, Option.bind_eq_some_iff, Option.some.injEq] at h
    grind

theorem pushAll_out (junk : Nat) : ∀ (ts : List VT) (vs : List Int) (s : Machine), (pushAll junk ts vs s).out = s.out
  | [], _, _ => by simp [pushAll]
  | _ :: _, [], _ => by simp [pushAll]
  | t :: ts, v :: vs, s => by rw [pushAll, pushAll_out junk ts vs]; rfl

theorem internal_bad {w : World} {junk : Nat} {name : String} {args : List Int} {s s' : Machine} (ho : s.out.bad = true)
    (h : internal w junk name args s = some s') : s'.out = s.out := by
  simp only [internal, Option.bind_eq_bind, Option.bind_eq_some_iff] at h
  obtain ⟨⟨params, ret⟩, h1, h2⟩ := h
  dsimp only at h2
  split at h2
  · simp at h2
  · simp only [call, Option.bind_eq_bind, Option.bind_eq_some_iff] at h2
    obtain ⟨f, hf, h2⟩ := h2
    split at h2
    · simp at h2
    · simp only [Option.bind_eq_some_iff, Option.some.injEq] at h2
      obtain ⟨r, hr, rfl⟩ := h2
      have := apply_bad (by rw [pushAll_out]; exact ho) hr
      rw [pushAll_out] at this
      exact this

theorem body_bad {w : World} {junk : Nat} {v : Int} : ∀ (xs : List (String × Arg)) {s s' : Machine}, s.out.bad = true →
    runBody w junk v xs s = some s' → s'.out = s.out
  | [], s, s', _, h => by simp [runBody] at h; rw [h]
  | (f, x) :: rest, s, s', ho, h => by
    simp only [runBody, Option.bind_eq_bind, Option.bind_eq_some_iff] at h
    obtain ⟨s1, h1, h2⟩ := h
    have e := internal_bad ho h1
    rw [body_bad rest (by rw [e]; exact ho) h2, e]

/-- After a character that cannot be encoded nothing is written any more, whatever is called. -/
theorem stays_bad {w : World} {junk : Nat} (calls : List (Meth × Int)) : ∀ {s s' : Machine}, s.out.bad = true →
    consoles w junk calls s = some s' → s'.out = s.out := by
  induction calls with
  | nil => intro s s' _ h; simp [consoles] at h; rw [h]
  | cons c rest ih =>
    intro s s' ho h
    obtain ⟨m, v⟩ := c
    simp only [consoles, Option.bind_eq_bind, Option.bind_eq_some_iff] at h
    obtain ⟨s1, h1, h2⟩ := h
    simp only [console, Option.bind_eq_bind, Option.bind_eq_some_iff] at h1
    obtain ⟨b, _, h1⟩ := h1
    have e := body_bad b ho h1
    rw [ih (by rw [e]; exact ho) h2, e]

/-- **C111**, refuted for characters that the stream cannot encode: they and everything that is written later are lost. -/
theorem lost_refuted {w : World} (junk : Nat) {c : Int} (hv : Value .char c) (he : w.enc c = false) {s : Machine}
    (hc : CacheOk s) (ho : s.out.bad = false) : ∃ s', console w junk (.write .char) c s = some s' ∧
      s'.out.chars = s.out.chars ∧ ∀ calls s'', consoles w junk calls s' = some s'' → s''.out.chars = s.out.chars := by
  have hread := read_pushed (t := .char) rfl hv s.mem (8 * s.top) junk
  obtain ⟨s', g1, g2, g3, g4⟩ := internal_one w junk (name := "Console_WriteChar") (t := .char) (by decide +kernel) rfl hc
    (v := c) (o := ⟨s.out.chars, true⟩) (by
      have hword : word .char = .char := rfl
      simp only [apply, pushV, hword, hread, if_true, endsLine, Bool.false_and, Bool.false_eq_true, if_false]
      simp [Stream.puts, ho, he])
  refine ⟨s', body_one rfl g1, by rw [g4], ?_⟩
  intro calls s'' h
  rw [stays_bad calls (by rw [g4]) h, g4]

/-! ## Arrays -/

theorem return_read {v : Int} (hv : Value .int32 v) (junk : Nat) (mem : Mem) (a : Nat) :
    readAt .int32 (return_ junk mem a v) a = v := read_pushed (t := .int32) rfl hv mem a junk

/-- A call with an array as first argument. -/
theorem array_call {w : World} (junk : Nat) {x : String × List VT × VT} (hx : x ∈ internals) {f : Func}
    (hf : getLibfunc x.1 = some f) {s : Machine} (hc : CacheOk s) {args : List Int} (ha : args.length = x.2.1.length)
    (hz : sizes x.2.1 x.2.2 = (x.2.1.length, 1)) (htop : (pushAll junk x.2.1 args s).top = s.top + x.2.1.length) {v : Int}
    (hv : Value .int32 v)
    (hr : apply w junk (8 * s.top) (pushAll junk x.2.1 args s).mem s.out f =
      some (return_ junk (pushAll junk x.2.1 args s).mem (8 * s.top) v, s.out))
    (hlow : ∀ y, y < 8 * s.top → (pushAll junk x.2.1 args s).mem y = s.mem y) (hcache : (pushAll junk x.2.1 args s).cache = s.cache) :
    ∃ s', internal w junk x.1 args s = some s' ∧ CacheOk s' ∧ s'.out = s.out ∧ s'.top = s.top + 1 ∧
      readAt .int32 s'.mem (8 * s.top) = v ∧ ∀ y, y < 8 * s.top → s'.mem y = s.mem y := by
  have hc' : CacheOk (pushAll junk x.2.1 args s) := by intro f z h; rw [hcache] at h; exact hc f z h
  obtain ⟨s', h1, h2, h3, h4, h5⟩ := call_eq w junk hx hf hc' (r := (return_ junk (pushAll junk x.2.1 args s).mem (8 * s.top) v, s.out))
    (by rw [hz, htop]; simp) (by rw [hz, htop, pushAll_out]; simpa using hr)
  refine ⟨s', ?_, h2, h4, by rw [h5, hz, htop]; simp, by rw [h3]; exact return_read hv _ _ _, ?_⟩
  · rw [internal, (internals_found _ hx).1]
    simpa [ha] using h1
  · intro y hy
    rw [h3]
    exact (store_out (by omega)).trans (hlow y hy)

theorem product_bounds : ∀ ls : List Int, (∀ l ∈ ls, 1 ≤ l) → 1 ≤ Arr.product ls ∧ ∀ l ∈ ls, l ≤ Arr.product ls
  | [], _ => by simp [Arr.product]
  | l :: ls, h => by
    obtain ⟨h1, h2⟩ := product_bounds ls (fun x hx => h x (by simp [hx]))
    have hl := h l (by simp)
    have e : Arr.product (l :: ls) = l * Arr.product ls := by simp [Arr.product]
    have p1 : l * 1 ≤ l * Arr.product ls := Int.mul_le_mul_of_nonneg_left h1 (by omega)
    have p2 : 1 * Arr.product ls ≤ l * Arr.product ls := Int.mul_le_mul_of_nonneg_right hl (by omega)
    rw [e]
    refine ⟨by omega, fun x hx => ?_⟩
    rcases List.mem_cons.1 hx with rfl | hx
    · omega
    · have := h2 x hx; omega

/-- The memory when an array and a dimension are pushed. -/
theorem two_pushed (junk : Nat) {array d : Int} (h0 : 0 ≤ array) (h1 : array < 2 ^ 64) (hd : Value .int32 d) (s : Machine) :
    readAt .uint64 (pushAll junk [.mobject, .int32] [array, d] s).mem (8 * s.top) = array ∧
      readAt .int32 (pushAll junk [.mobject, .int32] [array, d] s).mem (8 * s.top + 8) = d := by
  have hread := read_pushed (t := .uint64) rfl (v := array) (by simp only [Value, lo, hi]; omega) s.mem (8 * s.top) junk
  have e8 : 8 * s.top + 8 = 8 * (s.top + 1) := by omega
  refine ⟨?_, ?_⟩
  · refine Eq.trans (readAt_congr ?_) hread
    intro x hx1 hx2
    have hb : bytes .uint64 = 8 := rfl
    rw [hb] at hx2
    simp only [pushAll, pushV]
    exact store_out (by omega)
  · rw [e8]
    exact read_pushed (t := .int32) rfl hd _ (8 * (s.top + 1)) junk

theorem getLength_ok {w : World} (junk : Nat) {array : Int} (h0 : 0 ≤ array) (h1 : array < 2 ^ 64) {a : Arr.Arr}
    (hw : w.arrs array.toNat = some a) {d : Int} (hd : Value .int32 d) {l : Int} (hl : Arr.lengthOf a (conv .int16 d) = some l)
    (hv : Value .int32 l) {s : Machine} (hc : CacheOk s) :
    ∃ s', getLength w junk array d s = some s' ∧ s'.out = s.out ∧ s'.top = s.top + 1 ∧
      readAt .int32 s'.mem (8 * s.top) = l ∧ ∀ y, y < 8 * s.top → s'.mem y = s.mem y := by
  obtain ⟨r1, r2⟩ := two_pushed junk h0 h1 hd s
  obtain ⟨s', g⟩ := array_call (w := w) junk (x := ("Array_GetLengthOfDimension", [.mobject, .int32], .int32)) (by decide +kernel) rfl hc
    (args := [array, d]) rfl rfl (by simp [pushAll, pushV]) (v := l) hv
    (by simp [apply, r1, r2, hw, hl]) (by
      intro y hy; simp only [pushAll, pushV]; exact (store_out (by omega)).trans (store_out (by omega))) rfl
  exact ⟨s', g.1, g.2.2⟩

theorem getLength_none {w : World} (junk : Nat) {array : Int} (h0 : 0 ≤ array) (h1 : array < 2 ^ 64) {a : Arr.Arr}
    (hw : w.arrs array.toNat = some a) {d : Int} (hd : Value .int32 d) (hl : Arr.lengthOf a (conv .int16 d) = none)
    {s : Machine} (hc : CacheOk s) : getLength w junk array d s = none := by
  obtain ⟨r1, r2⟩ := two_pushed junk h0 h1 hd s
  have hz : (s.cache .lengthOfDimension).getD (2, 1) = (2, 1) := by
    cases h : s.cache .lengthOfDimension with
    | none => rfl
    | some z => exact hc _ z h ("Array_GetLengthOfDimension", [.mobject, .int32], .int32) (by decide +kernel) rfl
  have hs : sizes [.mobject, .int32] .int32 = (2, 1) := rfl
  have hf : getLibfunc "Array_GetLengthOfDimension" = some .lengthOfDimension := rfl
  have htop : (pushAll junk [.mobject, .int32] [array, d] s).top = s.top + 2 := rfl
  have hcache : (pushAll junk [.mobject, .int32] [array, d] s).cache = s.cache := rfl
  rw [getLength, internal, (internals_found ("Array_GetLengthOfDimension", [.mobject, .int32], .int32) (by decide +kernel)).1]
  simp only [Option.bind_eq_bind, Option.bind_some, List.length_cons, List.length_nil, ne_eq, not_true_eq_false, if_false,
    call, hf, hs, hcache, hz, htop]
  rw [if_neg (by omega)]
  simp [apply, r1, r2, hw, hl]

/-- **C111**, partial: for an array with the lengths `ls`, `Rank`, `Length` and `GetLength(k)` give the number of dimensions, of
elements, and the length of dimension `k`; the stack below the result and the output are as before.

Missing: dimensions that the array does not have (`dimension_refuted`, `dimension_wraps_refuted`), null. -/
theorem array_partial {w : World} (junk : Nat) {array : Int} (h0 : 0 ≤ array) (h1 : array < 2 ^ 64) (size : Nat) {ls : List Int}
    (hl : Arr.Lengths ls) (hrank : ls.length < 2 ^ 15) (hw : w.arrs array.toNat = Arr.newArray size ls) {s : Machine} (hc : CacheOk s) :
    (∃ s', rankOf w junk array s = some s' ∧ s'.out = s.out ∧ s'.top = s.top + 1 ∧
      readAt .int32 s'.mem (8 * s.top) = ls.length ∧ ∀ y, y < 8 * s.top → s'.mem y = s.mem y) ∧
    (∃ s', lengthOf w junk array s = some s' ∧ s'.out = s.out ∧ s'.top = s.top + 1 ∧
      readAt .int32 s'.mem (8 * s.top) = Arr.product ls ∧ ∀ y, y < 8 * s.top → s'.mem y = s.mem y) ∧
    ∀ k (hk : k < ls.length), ∃ s', getLength w junk array k s = some s' ∧ s'.out = s.out ∧ s'.top = s.top + 1 ∧
      readAt .int32 s'.mem (8 * s.top) = ls[k] ∧ ∀ y, y < 8 * s.top → s'.mem y = s.mem y := by
  obtain ⟨hne, hpos, hlt⟩ := hl
  obtain ⟨hp1, hp2⟩ := product_bounds ls hpos
  obtain ⟨a, ha, hd, ht, hlen⟩ := Arr.Props.lengths_partial size ls ⟨hne, hpos, hlt⟩
  rw [ha] at hw
  have hread := read_pushed (t := .uint64) rfl (v := array) (by simp only [Value, lo, hi]; omega) s.mem (8 * s.top) junk
  have hword : word .mobject = .uint64 := rfl
  have hword' : word .int32 = .int32 := rfl
  refine ⟨?_, ?_, ?_⟩
  · obtain ⟨s', g⟩ := array_call (w := w) junk (x := ("Array_GetRank", [.mobject], .int32)) (by decide +kernel) rfl hc
      (args := [array]) rfl rfl (by simp [pushAll, pushV]) (v := ls.length) (by simp only [Value, lo, hi]; omega)
      (by simp [apply, pushAll, pushV, hword, hread, hw, hd]) (by
        intro y hy; simp only [pushAll, pushV]; exact store_out (by omega)) rfl
    exact ⟨s', g.1, g.2.2⟩
  · obtain ⟨s', g⟩ := array_call (w := w) junk (x := ("Array_GetLength", [.mobject], .int32)) (by decide +kernel) rfl hc
      (args := [array]) rfl rfl (by simp [pushAll, pushV]) (v := Arr.product ls) (by simp only [Value, lo, hi]; omega)
      (by simp [apply, pushAll, pushV, hword, hread, hw, ht]) (by
        intro y hy; simp only [pushAll, pushV]; exact store_out (by omega)) rfl
    exact ⟨s', g.1, g.2.2⟩
  · intro k hk
    have hk1 := hp2 ls[k] (List.getElem_mem hk)
    have hk2 := hpos ls[k] (List.getElem_mem hk)
    refine getLength_ok junk h0 h1 hw (by simp only [Value, lo, hi]; omega) ?_ (by simp only [Value, lo, hi]; omega) hc
    rw [conv_id rfl (by simp only [Value, lo, hi]; omega)]
    exact hlen k hk

/-- **C111**, refuted for dimensions that the array does not have: asking for one of them reads outside of the header. -/
theorem dimension_refuted {w : World} (junk : Nat) {array : Int} (h0 : 0 ≤ array) (h1 : array < 2 ^ 64) {a : Arr.Arr}
    (hw : w.arrs array.toNat = some a) {k : Int} (hk : a.dimension ≤ k) (hk' : k < 2 ^ 15) (_ha : a.dimension ≠ 0) {s : Machine}
    (hc : CacheOk s) : getLength w junk array k s = none := by
  refine getLength_none junk h0 h1 hw (by simp only [Value, lo, hi]; omega) ?_ hc
  rw [conv_id rfl (by simp only [Value, lo, hi]; omega), Arr.lengthOf, if_neg (by omega)]
  simp only
  rw [if_neg (by omega), if_pos (by omega)]

/-- **C111**, refuted for large dimensions: `GetLength(65536 + k)` is `GetLength(k)`. -/
theorem dimension_wraps_refuted {w : World} (junk : Nat) {array : Int} (h0 : 0 ≤ array) (h1 : array < 2 ^ 64) (size : Nat)
    {ls : List Int} (hl : Arr.Lengths ls) (hrank : ls.length < 2 ^ 15) (hw : w.arrs array.toNat = Arr.newArray size ls)
    {s : Machine} (hc : CacheOk s) (k : Nat) (hk : k < ls.length) :
    ∃ s', getLength w junk array (65536 + k) s = some s' ∧ readAt .int32 s'.mem (8 * s.top) = ls[k] := by
  obtain ⟨hne, hpos, hlt⟩ := hl
  obtain ⟨hp1, hp2⟩ := product_bounds ls hpos
  obtain ⟨a, ha, hd, ht, hlen⟩ := Arr.Props.lengths_partial size ls ⟨hne, hpos, hlt⟩
  rw [ha] at hw
  have hk1 := hp2 ls[k] (List.getElem_mem hk)
  have hk2 := hpos ls[k] (List.getElem_mem hk)
  obtain ⟨s', g⟩ := getLength_ok junk h0 h1 hw (d := 65536 + (k : Int)) (by simp only [Value, lo, hi]; omega) (l := ls[k]) (by
      have : conv .int16 (65536 + (k : Int)) = k := by
        refine Eq.trans (conv_congr rfl ⟨1, ?_⟩) (conv_id (t := .int16) rfl (v := (k : Int)) (by simp only [Value, lo, hi]; omega))
        simp [VT.bits]
      rw [this]; exact hlen k hk) (by simp only [Value, lo, hi]; omega) hc
  exact ⟨s', g.1, g.2.2.2.1⟩

/-! ## Methods that share a name -/

/-- **C111**, refuted for internal methods of other classes: the command for a function has the sizes of the first method that
called it.  After `Internal.Console_WriteInt32`, a method declared `Void Console_WriteInt32(Int32, Int32)` leaves one of its two
arguments on the stack, and writes the second one. -/
theorem redeclared_refuted {w : World} (hw : Ok w) (junk : Nat) (a b : Int) (hb : Value .int32 b) :
    ∃ s1 s2, internal w junk "Console_WriteInt32" [1] ⟨5, fun _ => .data 0, {}, fun _ => none⟩ = some s1 ∧
      call w junk "Console_WriteInt32" [.int32, .int32] .void (pushAll junk [.int32, .int32] [a, b] s1) = some s2 ∧
      s2.top = s1.top + 1 ∧ s2.out.chars = s1.out.chars ++ decimal b := by
  have h1 : Numeral 1 (decimal 1) := decimal_numeral 1
  have hz : sizes [.int32] .void = (1, 0) := rfl
  have hread := read_pushed (t := .int32) rfl (v := 1) (by simp [Value, lo, hi]) (fun _ => .data 0) (8 * 5) junk
  have hb' : ∀ mem : Mem, readAt .int32 (store (store mem (8 * 5) 8 (enc .int32 a + 256 ^ bytes .int32 * junk)) (8 * 6) 8
      (enc .int32 b + 256 ^ bytes .int32 * junk)) (8 * 6) = b := fun mem => read_pushed (t := .int32) rfl hb _ (8 * 6) junk
  have hp1 := puts_good w.enc (decimal 1) {} rfl (good_ascii hw (numeral_ascii h1))
  have hp2 := puts_good w.enc (decimal b) ⟨decimal 1, false⟩ rfl (good_ascii hw (numeral_ascii (decimal_numeral b)))
  have hf : getLibfunc "Console_WriteInt32" = some (.write .int32 false) := rfl
  have hword : word .int32 = .int32 := rfl
  refine ⟨⟨5, store (fun _ => .data 0) (8 * 5) 8 (enc .int32 1 + 256 ^ bytes .int32 * junk), ⟨decimal 1, false⟩,
    fun g => if g = .write .int32 false then some (1, 0) else none⟩, ?_⟩
  refine ⟨⟨6, store (store (store (fun _ => .data 0) (8 * 5) 8 (enc .int32 1 + 256 ^ bytes .int32 * junk)) (8 * 5) 8
    (enc .int32 a + 256 ^ bytes .int32 * junk)) (8 * 6) 8 (enc .int32 b + 256 ^ bytes .int32 * junk), ⟨decimal 1 ++ decimal b, false⟩,
    fun g => if g = .write .int32 false then some (1, 0) else none⟩, ?_, ?_, rfl, rfl⟩
  · rw [internal, (internals_found ("Console_WriteInt32", [.int32], .void) (by decide +kernel)).1]
    simp only [Option.bind_eq_bind, Option.bind_some, List.length_cons, List.length_nil, ne_eq, not_true_eq_false, if_false,
      call, hf, hz, Option.getD_none, pushAll, pushV, hword]
    rw [if_neg (by omega)]
    simp only [apply, Nat.add_sub_cancel, hread, endsLine, Bool.false_and, Bool.false_eq_true, if_false, reduceCtorEq, hp1,
      Option.bind_some, List.nil_append]
  · simp only [Option.bind_eq_bind, Option.bind_some, call, hf, if_true, Option.getD_some, pushAll, pushV, hword]
    rw [if_neg (by omega)]
    have e : 8 * (5 + 1 + 1 - 1) = 8 * 6 := rfl
    have hfun : (fun g => if g = Func.write .int32 false then some ((1 : Nat), (0 : Nat)) else
        if g = Func.write .int32 false then some (1, 0) else none) =
        fun g => if g = Func.write .int32 false then some (1, 0) else none := by
      funext g
      split <;> rfl
    simp only [apply, e, hb', endsLine, Bool.false_and, Bool.false_eq_true, if_false, reduceCtorEq, hp2, Option.bind_some, hfun]

/-! ## Cases that meet the hypotheses -/

/-- A world with the string "Hé" at 1000, "Hi" at 1001, "a", 0, "b" at 1002, an array of 2 × 3 at 2000, and the constants
at 11 to 14; the stream encodes ASCII. -/
def sample : World where
  strs p := [(1000, [72, 233]), (1001, [72, 105]), (1002, [97, 0, 98]), (11, [10]), (12, trueText), (13, falseText), (14, crlf)].lookup p
  lit s := (([([10], 11), (trueText, 12), (falseText, 13), (crlf, 14)] : List (List Int × Nat)).lookup s).getD 0
  arrs p := if p = 2000 then Arr.newArray 4 [2, 3] else none
  enc c := decide (0 ≤ c) && decide (c < 128)

theorem sample_ok : Ok sample where
  lit := by decide
  ascii := by intro c h0 h1; simp [sample, h0, h1]

/-- `Write("Hi"); WriteLine((byte)200); WriteLine(); Write(true); Write('!');` shows `Hi200`, an empty line and `True!`. -/
def calls : List (Meth × Int) := [(.write .string, 1001), (.writeLine .uint8, 200), (.newline, 0), (.write .bool, 1), (.write .char, 33)]

def shown : List Int := [72, 105, 50, 48, 48, 10, 10, 84, 114, 117, 101, 33]

theorem calls_shown : ShowsAll sample calls shown :=
  .cons (txt := [72, 105]) (.write (t := .string) ⟨by decide, by decide, .inr ⟨by decide, by decide, by decide⟩⟩) <|
  .cons (txt := [50, 48, 48] ++ [10]) (.line (t := .uint8) (v := 200) ⟨by simp [Value, lo, hi], [2, 0, 0], by decide, by decide, by decide, by decide, by decide⟩) <|
  .cons (txt := [10]) .newline <|
  .cons (txt := [84, 114, 117, 101]) (.write (t := .bool) (v := 1) (.inl ⟨rfl, rfl⟩)) <|
  .cons (txt := [33]) (.write (t := .char) (v := 33) ⟨by simp [Value, lo, hi], rfl⟩) .nil

/-- The hypotheses of `consoles_partial` hold. -/
example (junk top : Nat) (mem : Mem) : ∃ s', consoles sample junk calls ⟨top, mem, {}, fun _ => none⟩ = some s' ∧
    s'.top = top ∧ s'.out = ⟨shown, false⟩ := by
  obtain ⟨s', h1, h2, h3⟩ := consoles_partial sample_ok junk calls_shown (by simp [calls, plainCall]) (by decide)
    (start_ok top mem {}) rfl
  exact ⟨s', h1, h2.1, h3⟩

/-- The machine computes: `WriteLine(18446744073709551615UL)` and `WriteLine(1)` come out as one line. -/
example : (consoles sample 7 [(.writeLine .uint64, 2 ^ 64 - 1), (.writeLine .int32, 1)] ⟨3, fun _ => .data 0, {}, fun _ => none⟩).map
    (fun s => s.out.chars) = some [49, 56, 52, 52, 54, 55, 52, 52, 48, 55, 51, 55, 48, 57, 53, 53, 49, 54, 49, 53, 49, 10] := by
  decide +kernel

/-- `Write("Hé"); Write("Hi");` shows `H`; `Write("a\0b")` shows `a`. -/
example : (consoles sample 7 [(.write .string, 1000), (.write .string, 1001)] ⟨3, fun _ => .data 0, {}, fun _ => none⟩).map
    (fun s => s.out) = some ⟨[72], true⟩ ∧
    (consoles sample 7 [(.write .string, 1002)] ⟨3, fun _ => .data 0, {}, fun _ => none⟩).map (fun s => s.out) = some ⟨[97], false⟩ := by
  decide +kernel

example : Arr.Lengths [2, 3] ∧ sample.arrs (2000 : Int).toNat = Arr.newArray 4 [2, 3] := ⟨⟨by decide, by decide, by decide⟩, rfl⟩

/-- `GetLength(1)` of the array is 3. -/
example : (getLength sample 7 2000 1 ⟨3, fun _ => .data 0, {}, fun _ => none⟩).map (fun s => (s.top, readAt .int32 s.mem 24)) =
    some (4, 3) := by decide +kernel

/-- `GetLength(2)` reads outside, `GetLength(65537)` is 3. -/
example : (getLength sample 7 2000 2 ⟨3, fun _ => .data 0, {}, fun _ => none⟩).isNone = true ∧
    (getLength sample 7 2000 65537 ⟨3, fun _ => .data 0, {}, fun _ => none⟩).map (fun s => readAt .int32 s.mem 24) = some 3 := by
  decide +kernel

/-- The character é is lost, with all that follows. -/
example : Value .char 233 ∧ sample.enc 233 = false := by
  refine ⟨by simp [Value, lo, hi], by decide⟩

end Verif.Console
