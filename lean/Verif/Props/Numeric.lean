import Verif.Proof.Numeric
import Verif.Spec.Value

/-!
Numeric literals: C22, C23, C62, C63.
-/

namespace Verif.Numeric.Props

open Verif.CStr (Ch)
open Spec

/-! ### C22 Integer literals denote their value -/

/-- C22.  An integer literal in any radix, with digit separators and a type suffix, denotes its positional value in the first of
the types its form permits that holds the value, and exactly its own characters are consumed.  `_partial`: a separator may only
follow a decimal digit, and the literal has no minus sign (`integer_literal_separator_refuted`, `negative_literal_partial`). -/
theorem integer_literal_partial {radix : Nat} {pre body suf rest : List Ch} {ds : List Nat} {long uns : Bool}
    (hp : Prefix radix pre) (hb : Body radix (· < 10) body ds) (h0 : radix = 10 → ds.head? ≠ some 0)
    (hs : Suffix suf long uns) (hr : Ends rest) (prev : Ch) :
    parseNumeric prev (pre ++ body ++ suf ++ rest) = (denoted radix long uns ds, rest) := by
  obtain ⟨st', prev', s, text, ds', h1, h2, h3, h4⟩ :=
    read_literal (st := {}) ⟨rfl, rfl, rfl, rfl⟩ hp hb h0 hs hr prev
  have hrr : (if (if radix = 10 then 0 else radix) = 0 then 10 else (if radix = 10 then 0 else radix)) = radix := by
    cases hp <;> rfl
  have hm := multi_pos hp.radix_ge (types radix long uns) (types_sorted ..) text ds' h3 0 (fun _ _ => Nat.zero_le _)
  simp only [Nat.zero_mul, Nat.zero_add, h4] at hm
  simp only [parseNumeric, h1, h2]
  simp only [convert, settle_int, hrr, types_eq]
  have hneg : ((none : Option Bool) == some false) = false := rfl
  simp only [hneg, Bool.not_false, hm]
  unfold denoted
  cases (types radix long uns).find? fun t => decide (value radix ds ≤ largest t) <;> simp

/-- C22.  In radix 10, 8 and 2 this covers every placement of separators between digits. -/
theorem integer_literal_upto10 {radix : Nat} (h10 : radix ≤ 10) {pre body suf rest : List Ch} {ds : List Nat} {long uns : Bool}
    (hp : Prefix radix pre) (hb : Body radix (fun _ => True) body ds) (h0 : radix = 10 → ds.head? ≠ some 0)
    (hs : Suffix suf long uns) (hr : Ends rest) (prev : Ch) :
    parseNumeric prev (pre ++ body ++ suf ++ rest) = (denoted radix long uns ds, rest) :=
  integer_literal_partial hp (hb.mono fun d hd _ => by omega) h0 hs hr prev

/-- C22.  `t.mk v` is the number `v` whenever `v` is within the range of `t`, so the literal's value is the mathematical one. -/
theorem literal_value_exact (t : ITy) (v : Nat) (h : v ≤ largest t) : (t.mk v).num = some (v : Int) := by
  cases t <;> simp only [ITy.mk, Value.TValue.num, largest] at * <;> congr 1
  · rw [BitVec.toInt_ofNat', Int.bmod_def]; omega
  · rw [BitVec.toNat_ofNat]; omega
  · rw [BitVec.toInt_ofNat', Int.bmod_def]; omega
  · rw [BitVec.toNat_ofNat]; omega

/-- C22.  A literal that consists of the single digit `0` is zero. -/
theorem zero_literal {suf rest : List Ch} {long uns : Bool} (hs : Suffix suf long uns) (hr : Ends rest) (prev : Ch) :
    parseNumeric prev (48#32 :: (suf ++ rest)) = (denoted 8 long uns [], rest) := by
  have hz : Spec.digit 48#32 = some 0 := by decide
  obtain ⟨a, b, c, d, e, f⟩ := at0_tail hs hr
  have h1 : readPrefix {} prev (48#32 :: (suf ++ rest)) = ({ radix := 8 }, 48#32, suf ++ rest) := by
    rw [readPrefix, if_neg (by decide), if_neg (by decide), if_pos rfl, if_neg (not_or.mpr ⟨a, b⟩),
      if_neg (not_or.mpr ⟨c, d⟩), if_neg e, if_neg f]
    rfl
  have h2 := continueRead_suffix (st := { radix := 8 }) rfl rfl rfl hs hr hz []
  simp only [parseNumeric, h1, h2]
  have hm := multi_pos (radix := 8) (by decide) (types 8 long uns) (types_sorted ..) [] [] .nil 0 (fun _ _ => Nat.zero_le _)
  simp only [convert, settle_int]
  have hneg : ((none : Option Bool) == some false) = false := rfl
  simp only [hneg, Bool.not_false]
  have ht := types_eq 8 long uns
  simp only [Nat.succ_ne_zero, if_false] at *
  rw [ht]
  simp only [Nat.zero_mul, Nat.zero_add] at hm
  rw [hm]
  unfold denoted
  cases (types 8 long uns).find? fun t => decide (value 8 [] ≤ largest t) <;> simp

-- `0x7F'00UL;` is uint64 32512 … here with the separator after the decimal digit 7: `0x7'F00UL;`
example : parseNumeric 0#32 ([48#32, 120#32] ++ [55#32, 39#32, 70#32, 48#32, 48#32] ++ [85#32, 76#32] ++ [59#32]) =
    (.val (.uint64 32512#64), [59#32]) := by
  rw [integer_literal_partial .hex (ds := [7, 15, 0, 0])
    (.sep (by decide) (by decide) (by decide) (.cons (by decide) (by decide) (.cons (by decide) (by decide)
      (.one (by decide) (by decide))))) (by decide) (.ulong (.inl rfl) (.inl rfl))
    (by intro c s h; cases h; decide)]
  decide

-- `3'000'000'000)` is int64 3000000000
example : parseNumeric 0#32 ([] ++ [51#32, 39#32, 48#32, 48#32, 48#32, 39#32, 48#32, 48#32, 48#32, 39#32, 48#32, 48#32, 48#32]
      ++ [] ++ [41#32]) = (.val (.int64 3000000000#64), [41#32]) := by
  rw [integer_literal_upto10 (by decide) .dec (ds := [3, 0, 0, 0, 0, 0, 0, 0, 0, 0])
    (.sep (by decide) (by decide) trivial (.cons (by decide) (by decide) (.cons (by decide) (by decide)
      (.sep (by decide) (by decide) trivial (.cons (by decide) (by decide) (.cons (by decide) (by decide)
        (.sep (by decide) (by decide) trivial (.cons (by decide) (by decide) (.cons (by decide) (by decide)
          (.one (by decide) (by decide))))))))))) (by decide) .none (by intro c s h; cases h; decide)]
  decide

/-- C22, refuted in general: `0xA'B` is rejected although the separator is between two digits. -/
theorem integer_literal_separator_refuted :
    Body 16 (fun _ => True) [65#32, 39#32, 66#32] [10, 11] ∧
    (parseNumeric 0#32 ([48#32, 120#32] ++ [65#32, 39#32, 66#32] ++ [] ++ [59#32])).1 = .format :=
  ⟨.sep (by decide) (by decide) trivial (.one (by decide) (by decide)), by decide⟩

/-- C22.  A negative decimal literal whose absolute value is below 2^31 is the `int` with that value.  `_partial`: larger
absolute values and other radices are missing (`negative_literal_refuted`). -/
theorem negative_literal_partial {body rest : List Ch} {ds : List Nat}
    (hb : Body 10 (fun _ => True) body ds) (h0 : ds.head? ≠ some 0) (hlt : value 10 ds < 2147483648) (hr : Ends rest) (prev : Ch) :
    ∃ w : BitVec 32, parseNumeric prev (45#32 :: (body ++ rest)) = (.val (.int32 w), rest) ∧ w.toInt = -(value 10 ds : Int) := by
  have hb' : Body 10 (· < 10) body ds := hb.mono fun d hd _ => hd
  obtain ⟨st', prev', s, text, ds', h1, h2, h3, h4⟩ :=
    read_literal (st := { positive := some false }) ⟨rfl, rfl, rfl, rfl⟩ .dec hb' (fun _ => h0) .none hr 45#32
  have hpre : readPrefix {} prev (45#32 :: (body ++ rest)) = (st', prev', s) := by
    rw [← h1, readPrefix, if_pos rfl]; simp [St.setPositive]
  have hsc := scan_small .int32 rfl false (by decide : 2 ≤ 10) h3 0
  simp only [Nat.zero_mul, Nat.zero_add, h4] at hsc
  have hsc := hsc hlt
  refine ⟨-(BitVec.ofNat 32 (value 10 ds)), ?_, ?_⟩
  · simp only [parseNumeric, hpre, h2]
    have : BitVec.ofNat 32 (value 10 ds) ≠ 0x80000000#32 := by
      intro h
      have := congrArg BitVec.toNat h
      rw [BitVec.toNat_ofNat] at this
      simp at this
      omega
    simp [convert, settle_int, intTypes, multi, hsc, ITy.mk, Value.negate, this]
  · rw [BitVec.toInt_neg, BitVec.toInt_ofNat']
    simp only [Int.bmod_def]; omega

/-- C22, refuted for negative literals: `-2147483648` overflows a signed integer inside the parser; `-9223372036854775809`
becomes a large positive number; `-0x1` is 4294967295. -/
theorem negative_literal_refuted :
    (parseNumeric 0#32 [45#32, 50#32, 49#32, 52#32, 55#32, 52#32, 56#32, 51#32, 54#32, 52#32, 56#32]).1 = .ub ∧
    (parseNumeric 0#32 [45#32, 57#32, 50#32, 50#32, 51#32, 51#32, 55#32, 50#32, 48#32, 51#32, 54#32, 56#32, 53#32, 52#32,
      55#32, 55#32, 53#32, 56#32, 48#32, 57#32]).1 = .val (.uint64 9223372036854775807#64) ∧
    (parseNumeric 0#32 [45#32, 48#32, 120#32, 49#32]).1 = .val (.uint32 4294967295#32) := by
  decide +kernel

/-! ### C23 Literals that do not fit are overflows -/

/-- C23.  A literal is reported as an overflow exactly if its value is above the largest value of every type its form permits.
`_partial`: as in `integer_literal_partial`. -/
theorem overflow_iff_partial {radix : Nat} {pre body suf rest : List Ch} {ds : List Nat} {long uns : Bool}
    (hp : Prefix radix pre) (hb : Body radix (· < 10) body ds) (h0 : radix = 10 → ds.head? ≠ some 0)
    (hs : Suffix suf long uns) (hr : Ends rest) (prev : Ch) :
    (parseNumeric prev (pre ++ body ++ suf ++ rest)).1 = .overflow ↔ value radix ds > 18446744073709551615 := by
  rw [integer_literal_partial hp hb h0 hs hr prev]
  have hlast : ITy.uint64 ∈ types radix long uns := by
    unfold types; split <;> (try split) <;> decide
  have hall : ∀ t, largest t ≤ 18446744073709551615 := by intro t; cases t <;> decide
  show denoted radix long uns ds = .overflow ↔ _
  unfold denoted
  cases h : (types radix long uns).find? fun t => decide (value radix ds ≤ largest t) with
  | none =>
    rw [List.find?_eq_none] at h
    have := h _ hlast
    have this : ¬ value radix ds ≤ largest .uint64 := fun hle => this (decide_eq_true hle)
    simp only [largest] at this
    simp only [true_iff]
    omega
  | some t =>
    have := List.find?_some h
    have h' := hall t
    simp at this ⊢
    omega

/-- C23.  A literal that is not an overflow has exactly its mathematical value: nothing wraps. -/
theorem no_silent_wrap_partial {radix : Nat} {pre body suf rest : List Ch} {ds : List Nat} {long uns : Bool}
    (hp : Prefix radix pre) (hb : Body radix (· < 10) body ds) (h0 : radix = 10 → ds.head? ≠ some 0)
    (hs : Suffix suf long uns) (hr : Ends rest) (prev : Ch) (hv : value radix ds ≤ 18446744073709551615) :
    ∃ w, (parseNumeric prev (pre ++ body ++ suf ++ rest)).1 = .val w ∧ w.num = some (value radix ds : Int) := by
  have hno := mt (overflow_iff_partial hp hb h0 hs hr prev).mp (by omega)
  rw [integer_literal_partial hp hb h0 hs hr prev] at hno ⊢
  dsimp only at *
  unfold denoted at *
  cases h : (types radix long uns).find? fun t => decide (value radix ds ≤ largest t) with
  | none => rw [h] at hno; exact absurd rfl hno
  | some t => exact ⟨_, rfl, literal_value_exact t _ (by simpa using List.find?_some h)⟩

-- 18446744073709551616 overflows
example : (parseNumeric 0#32 [49#32, 56#32, 52#32, 52#32, 54#32, 55#32, 52#32, 52#32, 48#32, 55#32, 51#32, 55#32, 48#32, 57#32,
    53#32, 53#32, 49#32, 54#32, 49#32, 54#32]).1 = .overflow := by decide +kernel

/-- C23, refuted at the level of tokens: the reader attaches an error to the token of every number, valid or not, so the error
does not distinguish a malformed literal from a correct one. -/
theorem number_token_error_refuted : numberError (parseNumeric 0#32 [49#32]).1 = .numericFormat ∧
    (parseNumeric 0#32 [49#32]).1 = .val (.int32 1#32) := by decide

/-! ### C62 Literals with a decimal point -/

/-- C62.  A literal with a decimal point denotes the decimal fraction it spells, exactly, before it is rounded to its type.
`_partial`: exponents are missing (`exponent_refuted`), and so is the rounding. -/
theorem decimal_fraction_partial {i f suf rest : List Ch} {ds fs : List Nat} {size : Nat}
    (hi : Body 10 (fun _ => True) i ds) (h0 : ds.head? ≠ some 0 ∨ i = [48#32]) (hf : Body 10 (fun _ => True) f fs)
    (hs : FSuffix suf size) (hr : Ends rest) (prev : Ch) :
    parseNumeric prev (i ++ 46#32 :: (f ++ suf ++ rest)) =
      (.float size false (value 10 ds * 10 ^ fs.length + value 10 fs) (-(fs.length : Int)), rest) := by
  have hT : f ++ suf ++ rest = f ++ (suf ++ rest) := List.append_assoc ..
  rw [hT]
  have hi' : Body 10 (· < 10) i ds := hi.mono fun d hd _ => hd
  have hf' : Body 10 (· < 10) f fs := hf.mono fun d hd _ => hd
  have hlt : ∀ {s : List Ch} {ds : List Nat}, Body 10 (· < 10) s ds → (15 : Nat) ∉ ds := by
    intro s ds hb
    induction hb with
    | one _ h => simp; omega
    | cons _ h _ ih => simp [ih]; omega
    | sep _ h _ _ ih => simp [ih]; omega
  have hp : readPrefix {} prev (i ++ 46#32 :: (f ++ (suf ++ rest))) = ({}, prev, i ++ 46#32 :: (f ++ (suf ++ rest))) := by
    rcases h0 with h0 | rfl
    · exact readPrefix_dec hi' h0 _ _
    · rw [List.singleton_append, readPrefix]; simp [at0]
  obtain ⟨l1, d1, hd1, e1⟩ := continueRead_body (st := {}) (by decide) hi' (fun h => absurd h (hlt hi')) prev []
    (46#32 :: (f ++ (suf ++ rest)))
  obtain ⟨l2, d2, hd2, e2⟩ := continueRead_body (st := { point := true }) (by decide) hf' (fun h => absurd h (hlt hf')) 46#32
    (i ++ [46#32]) (suf ++ rest)
  have e3 := continueRead_fsuffix (st := { point := true }) rfl rfl rfl hs hr hd2 rfl (i ++ [46#32] ++ f)
  have hset : St.setPoint {} = { point := true } := rfl
  rw [List.nil_append, continueRead_point, hset, e2, e3] at e1
  obtain ⟨iz, s1⟩ := fscan_int hi'.digs {} (46#32 :: f) rfl rfl
  have hpt : ∀ st : FSt, fscan st (46#32 :: f) = fscan { st with point := true, pzc := if st.iz then st.pzc + 1 else st.pzc } f := by
    intro st; rw [fscan, if_neg (by decide)]; simp [fpush]
  have s2 := fscan_frac hf'.digs { mant := value 10 ds, point := true, iz := iz, pzc := if iz then 1 else 0 } rfl rfl rfl
  rw [hpt] at s1
  have hfs : fscan {} (i ++ 46#32 :: f) =
      some (some (value 10 ds * 10 ^ fs.length + value 10 fs, -(fs.length : Int))) := by
    rw [s1]
    simpa using s2
  simp only [parseNumeric, hp, e1]
  have hneg : ((none : Option Bool) == some false) = false := rfl
  cases hs <;> simp [convert, St.settle, hfs, hneg]

-- `3.14f`
example : parseNumeric 0#32 ([51#32] ++ 46#32 :: ([49#32, 52#32] ++ [102#32] ++ [])) = (.float 4 false 314 (-2), []) :=
  decimal_fraction_partial (ds := [3]) (fs := [1, 4]) (.one (by decide) (by decide)) (.inl (by decide))
    (.cons (by decide) (by decide) (.one (by decide) (by decide))) (.float (.inr rfl)) (by intro c s h; cases h) 0#32

/-- The branch of the reader for an exponent is never taken: while a literal is read its radix is never 10. -/
theorem radix_never_ten (prev : Ch) (src : List Ch) :
    let r := readPrefix {} prev src
    (continueRead r.1 r.2.1 [] none r.2.2).1.exponent = false :=
  (NotTen.ofRead _ _ _ _ _ (NotTen.ofPrefix src {} prev ⟨by decide, rfl⟩)).2

/-- C62, refuted for scientific notation: `1.5e3` is 15 * 10^-4, `1e5` is malformed, and in `1.5E+3` the literal ends before
the sign. -/
theorem exponent_refuted :
    parseNumeric 0#32 [49#32, 46#32, 53#32, 101#32, 51#32] = (.float 8 false 15 (-4), []) ∧
    parseNumeric 0#32 [49#32, 101#32, 53#32] = (.format, []) ∧
    parseNumeric 0#32 [49#32, 46#32, 53#32, 69#32, 43#32, 51#32] = (.float 8 false 15 (-1), [43#32, 51#32]) := by
  decide

/-! ### C63 Hexadecimal literals with the suffix `H` -/

/-- C63.  Hexadecimal digits that begin with a decimal digit other than 0 and end with `H` denote their value.  `_partial`: no
digit is `F` (`hex_suffix_refuted`). -/
theorem hex_suffix_partial {body rest : List Ch} {ds : List Nat} {h : Ch} (hh : h = 72#32 ∨ h = 104#32)
    (hb : Body 16 (· < 10) body ds) (h0 : ds.head? ≠ some 0) (hF : 15 ∉ ds) (hr : Ends rest) (prev : Ch) :
    parseNumeric prev (body ++ h :: rest) = (denoted 16 false true ds, rest) := by
  have hp := readPrefix_dec (st := {}) hb h0 (h :: rest) prev
  obtain ⟨l, d, hd, e⟩ := continueRead_body (st := {}) (by decide) hb (fun hm => absurd hm hF) prev [] (h :: rest)
  have e2 : continueRead {} l body none (h :: rest) = ({ radix := 16 }, body, rest) := by
    rcases hh with rfl | rfl <;>
    · rw [continueRead]
      simp [St.setRadix, End.or, continueRead_end hr, finish_some hd]
  have hm := multi_pos (by decide : 2 ≤ 16) (types 16 false true) (types_sorted ..) body ds hb.digs 0 (fun _ _ => Nat.zero_le _)
  simp only [Nat.zero_mul, Nat.zero_add] at hm
  have hneg : ((none : Option Bool) == some false) = false := rfl
  rw [List.nil_append, e2] at e
  simp only [parseNumeric, hp, e]
  have ht : intTypes false true 16 = types 16 false true := rfl
  simp only [convert, settle_int, hneg, Bool.not_false]
  simp only [Nat.succ_ne_zero, if_false, Bool.false_eq_true, beq_self_eq_true, ht, hm]
  unfold denoted
  cases (types 16 false true).find? fun t => decide (value 16 ds ≤ largest t) <;> simp

-- `1AH`
example : parseNumeric 0#32 ([49#32, 65#32] ++ 72#32 :: []) = (.val (.uint32 26#32), []) := by
  rw [hex_suffix_partial (.inl rfl) (ds := [1, 10]) (.cons (by decide) (by decide) (.one (by decide) (by decide))) (by decide)
    (by decide) (by intro c s h; cases h)]
  decide

/-- C63, refuted in general: `1FH` and `0AH` are rejected. -/
theorem hex_suffix_refuted :
    (parseNumeric 0#32 [49#32, 70#32, 72#32]).1 = .format ∧ (parseNumeric 0#32 [48#32, 65#32, 72#32]).1 = .format := by
  decide

end Verif.Numeric.Props
