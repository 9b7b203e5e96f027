import Verif.Model.Numeric
import Verif.Spec.Numeric

namespace Verif.Numeric

open Verif.CStr (Ch isDigit isWord isDigitOf digitValue)
open Spec

theorem ch_eq (c : Ch) : c = BitVec.ofNat 32 c.toNat := by
  apply BitVec.eq_of_toNat_eq
  rw [BitVec.toNat_ofNat]
  have := c.isLt
  omega

theorem digit_lt {c : Ch} {d : Nat} (h : digit c = some d) : c.toNat < 128 ∧ d < 16 := by
  unfold digit at h
  split at h
  · cases h; omega
  · split at h
    · cases h; omega
    · split at h
      · cases h; omega
      · cases h

/-- The facts about digit characters, checked on the whole 7-bit range. -/
theorem digit_table : ∀ n < 128, ∀ d < 16, digit (BitVec.ofNat 32 n) = some d →
    digitValue (BitVec.ofNat 32 n) = (d : Int) ∧ isWord (BitVec.ofNat 32 n) = true ∧
    isDigit (BitVec.ofNat 32 n) = decide (d < 10) := by
  decide +kernel

theorem digit_table'' : ∀ n < 128, ∀ d < 16, digit (BitVec.ofNat 32 n) = some d →
    decide (n = 69 ∨ n = 101) = decide (d = 14) ∧ decide (n = 70 ∨ n = 102) = decide (d = 15) ∧
    decide (n = 48) = decide (d = 0) ∧ decide (n = 66 ∨ n = 98) = decide (d = 11) := by
  decide +kernel

theorem digit_table' : ∀ n < 128, ∀ d < 16, digit (BitVec.ofNat 32 n) = some d →
    n ∉ [46, 76, 108, 85, 117, 72, 104, 39, 45, 43, 0, 88, 120] := by
  decide +kernel

theorem ofNat_eq_iff {c : Ch} {k : Nat} (hk : k < 128) : c = BitVec.ofNat 32 k ↔ c.toNat = k := by
  constructor
  · rintro rfl; rw [BitVec.toNat_ofNat]; omega
  · intro h; rw [ch_eq c, h]

structure DigitFacts (c : Ch) (d : Nat) : Prop where
  dv : digitValue c = (d : Int)
  word : isWord c = true
  dig : isDigit c = decide (d < 10)
  e : c = 69#32 ∨ c = 101#32 ↔ d = 14
  f : c = 70#32 ∨ c = 102#32 ↔ d = 15
  dot : c ≠ 46#32
  l : ¬ (c = 76#32 ∨ c = 108#32)
  u : ¬ (c = 85#32 ∨ c = 117#32)
  h : ¬ (c = 72#32 ∨ c = 104#32)
  q : c ≠ 39#32
  m : c ≠ 45#32
  p : c ≠ 43#32
  z : c ≠ 0#32
  zero : c = 48#32 ↔ d = 0
  x : ¬ (c = 88#32 ∨ c = 120#32)
  b : c = 66#32 ∨ c = 98#32 ↔ d = 11

theorem digit_facts {c : Ch} {d : Nat} (h : digit c = some d) : DigitFacts c d := by
  obtain ⟨hn, hd⟩ := digit_lt h
  have hc := ch_eq c
  have := digit_table c.toNat hn d hd (by rw [← hc]; exact h)
  rw [← hc] at this
  obtain ⟨h1, h2, h3⟩ := this
  obtain ⟨h4, h5, h17, h20⟩ := digit_table'' c.toNat hn d hd (by rw [← hc]; exact h)
  rw [decide_eq_decide] at h4 h5 h17 h20
  have h' := digit_table' c.toNat hn d hd (by rw [← hc]; exact h)
  simp only [List.mem_cons, List.not_mem_nil, or_false, not_or] at h'
  obtain ⟨h6, h7, h8, h9, h10, h11, h12, h13, h14, h15, h16, h18, h19⟩ := h'
  constructor
  · exact h1
  · exact h2
  · exact h3
  · rw [ofNat_eq_iff (by decide), ofNat_eq_iff (by decide)]; exact h4
  · rw [ofNat_eq_iff (by decide), ofNat_eq_iff (by decide)]; exact h5
  · rw [Ne, ofNat_eq_iff (by decide)]; exact h6
  · rw [ofNat_eq_iff (by decide), ofNat_eq_iff (by decide)]; omega
  · rw [ofNat_eq_iff (by decide), ofNat_eq_iff (by decide)]; omega
  · rw [ofNat_eq_iff (by decide), ofNat_eq_iff (by decide)]; omega
  · rw [Ne, ofNat_eq_iff (by decide)]; exact h13
  · rw [Ne, ofNat_eq_iff (by decide)]; exact h14
  · rw [Ne, ofNat_eq_iff (by decide)]; exact h15
  · rw [Ne, ofNat_eq_iff (by decide)]; exact h16
  · rw [ofNat_eq_iff (by decide)]; exact h17
  · rw [ofNat_eq_iff (by decide), ofNat_eq_iff (by decide)]; omega
  · rw [ofNat_eq_iff (by decide), ofNat_eq_iff (by decide)]; exact h20

/-- A text of digits with separators anywhere. -/
inductive Digs (radix : Nat) : List Ch → List Nat → Prop where
  | nil : Digs radix [] []
  | sep {s ds} : Digs radix s ds → Digs radix (39#32 :: s) ds
  | cons {c : Ch} {d : Nat} {s ds} : digit c = some d → d < radix → Digs radix s ds → Digs radix (c :: s) (d :: ds)

theorem Spec.Body.digs {radix : Nat} {ok : Nat → Prop} {s : List Ch} {ds : List Nat} (h : Body radix ok s ds) :
    Digs radix s ds := by
  induction h with
  | one h1 h2 => exact .cons h1 h2 .nil
  | cons h1 h2 _ ih => exact .cons h1 h2 ih
  | sep h1 h2 _ _ ih => exact .cons h1 h2 (.sep ih)

theorem Spec.Body.mono {radix : Nat} {ok ok' : Nat → Prop} (hm : ∀ d, d < radix → ok d → ok' d) {s : List Ch} {ds : List Nat}
    (h : Body radix ok s ds) : Body radix ok' s ds := by
  induction h with
  | one h1 h2 => exact .one h1 h2
  | cons h1 h2 _ ih => exact .cons h1 h2 ih
  | sep h1 h2 h3 _ ih => exact .sep h1 h2 (hm _ h2 h3) ih

/-! ## Digits to values -/

theorem isDigitOf_of {c : Ch} {d radix : Nat} (h : digit c = some d) (hd : d < radix) : isDigitOf c radix = true := by
  have := (digit_facts h).dv
  simp only [isDigitOf, this, decide_eq_true_eq]
  omega

theorem check_iff {r max v n : Nat} (hn : n < r) :
    ¬ (v > max / r ∨ (v = max / r ∧ n > max % r)) ↔ v * r + n ≤ max := by
  have hr : 0 < r := by omega
  have e := Nat.div_add_mod max r
  have hm := Nat.mod_lt max hr
  constructor
  · intro h
    have h1 : v ≤ max / r := by omega
    rcases Nat.lt_or_ge v (max / r) with h2 | h2
    · have : (v + 1) * r ≤ (max / r) * r := Nat.mul_le_mul_right r (by omega)
      rw [Nat.mul_comm (max / r) r] at this
      rw [Nat.add_mul, Nat.one_mul] at this
      omega
    · have hv : v = max / r := by omega
      have : v * r = r * (max / r) := by rw [hv, Nat.mul_comm]
      omega
  · intro h hh
    rcases hh with hh | ⟨hh, h3⟩
    · have : (max / r + 1) * r ≤ v * r := Nat.mul_le_mul_right r (by omega)
      rw [Nat.add_mul, Nat.one_mul, Nat.mul_comm (max / r) r] at this
      omega
    · have : v * r = r * (max / r) := by rw [hh, Nat.mul_comm]
      omega

theorem maxValue_pos (t : ITy) : maxValue t true = largest t := by cases t <;> rfl

theorem maxValue_lt (t : ITy) : (t.signed = true → maxValue t true < 2 ^ (t.bits - 1)) ∧ maxValue t true < 2 ^ t.bits := by
  cases t <;> decide

theorem push_pos (t : ITy) {radix v d : Nat} {c : Ch} (h : digit c = some d) (hd : d < radix) :
    push t radix true v c = if v * radix + d ≤ largest t then .ok (v * radix + d) else .overflow := by
  have hdv : (digitValue c).toNat = d := by rw [(digit_facts h).dv]; rfl
  have hck := check_iff (r := radix) (max := maxValue t true) (v := v) hd
  rw [maxValue_pos] at hck
  simp only [push, isDigitOf_of h hd, Bool.not_true, Bool.false_eq_true, if_false, hdv, maxValue_pos]
  by_cases hle : v * radix + d ≤ largest t
  · rw [if_neg (hck.mpr hle), if_pos hle]
    have hm := maxValue_lt t
    rw [maxValue_pos] at hm
    by_cases hs : t.signed = true
    · have : v * radix + d < 2 ^ (t.bits - 1) := Nat.lt_of_le_of_lt hle (hm.1 hs)
      rw [if_pos hs, if_pos this]
    · rw [if_neg hs, Nat.mod_eq_of_lt (Nat.lt_of_le_of_lt hle hm.2)]
  · rw [if_neg hle, if_pos]
    exact Classical.byContradiction fun hh => hle (hck.mp hh)

theorem value_lt {r : Nat} (hr : 0 < r) : ∀ ds : List Nat, (∀ d ∈ ds, d < r) → value r ds < r ^ ds.length
  | [], _ => by simp [value]
  | d :: ds, h => by
    have ih := value_lt hr ds (fun x hx => h x (List.mem_cons_of_mem _ hx))
    have hd := h d List.mem_cons_self
    simp only [value, List.length_cons, Nat.pow_succ]
    have : (d + 1) * r ^ ds.length ≤ r * r ^ ds.length := Nat.mul_le_mul_right _ (by omega)
    rw [Nat.add_mul, Nat.one_mul] at this
    rw [Nat.mul_comm (r ^ ds.length) r]
    omega

theorem step_total (r v d : Nat) (ds : List Nat) :
    (v * r + d) * r ^ ds.length + value r ds = v * r ^ (d :: ds).length + value r (d :: ds) := by
  simp only [value, List.length_cons, Nat.pow_succ]
  rw [Nat.add_mul, Nat.mul_assoc, Nat.mul_comm r (r ^ ds.length)]
  omega

theorem scan_pos (t : ITy) {radix : Nat} (hr : 2 ≤ radix) {s : List Ch} {ds : List Nat} (h : Digs radix s ds) :
    ∀ v, v ≤ largest t →
    (v * radix ^ ds.length + value radix ds ≤ largest t →
      scan t radix true v s = .done (v * radix ^ ds.length + value radix ds)) ∧
    (¬ v * radix ^ ds.length + value radix ds ≤ largest t →
      ∃ w s' ds', scan t radix true v s = .overflow w s' ∧ Digs radix s' ds' ∧ w ≤ largest t ∧
        w * radix ^ ds'.length + value radix ds' = v * radix ^ ds.length + value radix ds) := by
  induction h with
  | nil =>
    intro v hv
    refine ⟨fun _ => by simp [scan, value], fun h => ?_⟩
    simp only [value, List.length_nil, Nat.pow_zero, Nat.mul_one, Nat.add_zero] at h
    omega
  | sep h ih =>
    intro v hv
    have := ih v hv
    simpa [scan] using this
  | @cons c d s ds hc hd hs ih =>
    intro v hv
    have hq := (digit_facts hc).q
    have hp := push_pos t (v := v) hc hd
    have hpos : 1 ≤ radix ^ ds.length := Nat.one_le_pow _ _ (by omega)
    by_cases hle : v * radix + d ≤ largest t
    · rw [if_pos hle] at hp
      have := ih (v * radix + d) hle
      rw [step_total] at this
      simp only [scan, if_neg hq, hp]
      exact this
    · rw [if_neg hle] at hp
      have hbig : ¬ v * radix ^ (d :: ds).length + value radix (d :: ds) ≤ largest t := by
        rw [← step_total]
        have : (v * radix + d) * 1 ≤ (v * radix + d) * radix ^ ds.length := Nat.mul_le_mul_left _ hpos
        omega
      refine ⟨fun h => absurd h hbig, fun _ => ⟨v, c :: s, d :: ds, ?_, .cons hc hd hs, hv, rfl⟩⟩
      simp only [scan, if_neg hq, hp]

/-- Widening through a list of types gives the first that holds the value. -/
theorem multi_pos {radix : Nat} (hr : 2 ≤ radix) : ∀ (ts : List ITy), ts.Pairwise (fun a b => largest a ≤ largest b) →
    ∀ (s : List Ch) (ds : List Nat), Digs radix s ds → ∀ v, (∀ t ∈ ts, v ≤ largest t) →
    multi radix true v s ts =
      match ts.find? fun t => v * radix ^ ds.length + value radix ds ≤ largest t with
      | some t => .int t (v * radix ^ ds.length + value radix ds)
      | none => .overflow
  | [], _, _, _, _, _, _ => rfl
  | t :: ts, hp, s, ds, h, v, hv => by
    obtain ⟨h1, h2⟩ := scan_pos t hr h v (hv t List.mem_cons_self)
    rw [List.pairwise_cons] at hp
    by_cases hle : v * radix ^ ds.length + value radix ds ≤ largest t
    · simp only [multi, h1 hle, List.find?_cons, decide_eq_true hle]
    · obtain ⟨w, s', ds', e, hd, hw, htot⟩ := h2 hle
      have ih := multi_pos hr ts hp.2 s' ds' hd w (fun t' ht' => Nat.le_trans hw (hp.1 t' ht'))
      rw [htot] at ih
      simp only [multi, e, List.find?_cons, decide_eq_false hle, ih]

theorem types_eq (radix : Nat) (long unsigned : Bool) :
    intTypes long (if unsigned then true else radix == 16) radix = types radix long unsigned := by
  cases long <;> cases unsigned <;> cases h : (radix == 16) <;> simp [intTypes, types, h]

theorem types_sorted (radix : Nat) (long unsigned : Bool) :
    (types radix long unsigned).Pairwise (fun a b => largest a ≤ largest b) := by
  unfold types
  split <;> (try split) <;> decide

/-- Small values are scanned without overflow whatever the sign. -/
theorem scan_small (t : ITy) (ht : t.signed = true) (b : Bool) {radix : Nat} (hr : 2 ≤ radix) {s : List Ch} {ds : List Nat}
    (h : Digs radix s ds) :
    ∀ v, v * radix ^ ds.length + value radix ds < 2 ^ (t.bits - 1) →
      scan t radix b v s = .done (v * radix ^ ds.length + value radix ds) := by
  have hmax : 2 ^ (t.bits - 1) ≤ maxValue t b + 1 := by cases t <;> cases b <;> simp_all [ITy.signed, maxValue, ITy.bits]
  induction h with
  | nil => intro v _; simp [scan, value]
  | sep h ih => intro v hv; simpa [scan] using ih v hv
  | @cons c d s ds hc hd hs ih =>
    intro v hv
    have hq := (digit_facts hc).q
    have hdv : (digitValue c).toNat = d := by rw [(digit_facts hc).dv]; rfl
    have hpos : 1 ≤ radix ^ ds.length := Nat.one_le_pow _ _ (by omega)
    rw [← step_total] at hv ⊢
    have hlt : v * radix + d < 2 ^ (t.bits - 1) := by
      have : (v * radix + d) * 1 ≤ (v * radix + d) * radix ^ ds.length := Nat.mul_le_mul_left _ hpos
      omega
    have hp : push t radix b v c = .ok (v * radix + d) := by
      have hck := check_iff (r := radix) (max := maxValue t b) (v := v) hd
      simp only [push, isDigitOf_of hc hd, Bool.not_true, Bool.false_eq_true, if_false, hdv]
      rw [if_neg (hck.mpr (by omega)), if_pos ht, if_pos hlt]
    simp only [scan, if_neg hq, hp]
    exact ih _ hv

/-! ## Reading -/

/-- What the reading loop does on one digit. -/
theorem continueRead_digit {st : St} {prev c : Ch} {acc s : List Ch} {d : Nat} (h : digit c = some d) (h10 : st.radix ≠ 10)
    (h15 : d = 15 → st.radix ≠ 0) :
    continueRead st prev acc none (c :: s) = continueRead st c (acc ++ [c]) none s := by
  have f := digit_facts h
  rw [continueRead]
  simp only [f.word, Bool.not_true, Bool.false_eq_true, if_false, Option.isSome_none, if_neg f.dot, if_neg h10,
    if_neg f.l, if_neg f.u, if_neg f.h, if_neg f.q]
  by_cases he : c = 69#32 ∨ c = 101#32
  · simp only [if_pos he]
  · by_cases hf : c = 70#32 ∨ c = 102#32
    · have := h15 (f.f.mp hf)
      simp only [if_neg he, if_pos hf]
      rw [if_neg (by omega)]
    · simp only [if_neg he, if_neg hf]

theorem continueRead_sep {st : St} {prev : Ch} {acc s : List Ch} (h : isDigit prev = true) :
    continueRead st prev acc none (39#32 :: s) = continueRead st 39#32 (acc ++ [39#32]) none s := by
  rw [continueRead]
  simp [h]

theorem continueRead_body {radix : Nat} {st : St} (h10 : st.radix ≠ 10) {body : List Ch} {ds : List Nat}
    (hb : Body radix (· < 10) body ds) (h15 : 15 ∈ ds → st.radix ≠ 0) : ∀ (prev : Ch) (acc tl : List Ch),
    ∃ last d, digit last = some d ∧
      continueRead st prev acc none (body ++ tl) = continueRead st last (acc ++ body) none tl := by
  induction hb with
  | @one c d h1 h2 =>
    intro prev acc tl
    exact ⟨c, d, h1, continueRead_digit h1 h10 (by rintro rfl; exact h15 (by simp))⟩
  | @cons c d s ds h1 h2 _ ih =>
    intro prev acc tl
    obtain ⟨last, e, h3, h4⟩ := ih (fun h => h15 (List.mem_cons_of_mem _ h)) c (acc ++ [c]) tl
    refine ⟨last, e, h3, ?_⟩
    rw [List.cons_append, continueRead_digit h1 h10 (by rintro rfl; exact h15 (by simp)), h4]
    simp
  | @sep c d s ds h1 h2 hok _ ih =>
    intro prev acc tl
    obtain ⟨last, e, h3, h4⟩ := ih (fun h => h15 (List.mem_cons_of_mem _ h)) 39#32 (acc ++ [c] ++ [39#32]) tl
    refine ⟨last, e, h3, ?_⟩
    have hd : isDigit c = true := by rw [(digit_facts h1).dig]; simpa using hok
    rw [List.cons_append, continueRead_digit h1 h10 (by rintro rfl; exact h15 (by simp)), List.cons_append,
      continueRead_sep hd, h4]
    simp

theorem continueRead_end {st : St} {prev : Ch} {acc : List Ch} {e : End} {rest : List Ch} (hr : Ends rest) :
    continueRead st prev acc e rest = finish st acc prev e rest := by
  cases rest with
  | nil => rw [continueRead]
  | cons c s =>
    obtain ⟨h1, h2, h3⟩ := hr c s rfl
    have hw : ∀ k : Nat, k < 128 → isWord (BitVec.ofNat 32 k) = true → c ≠ BitVec.ofNat 32 k := by
      rintro k - hk rfl; rw [h1] at hk; cases hk
    have a := hw 69 (by decide) (by decide)
    have b := hw 101 (by decide) (by decide)
    have a1 := hw 70 (by decide) (by decide)
    have b1 := hw 102 (by decide) (by decide)
    have a2 := hw 76 (by decide) (by decide)
    have b2 := hw 108 (by decide) (by decide)
    have a3 := hw 85 (by decide) (by decide)
    have b3 := hw 117 (by decide) (by decide)
    have a4 := hw 72 (by decide) (by decide)
    have b4 := hw 104 (by decide) (by decide)
    rw [continueRead]
    simp only [h1, if_neg h2, if_neg h3, Bool.not_false, if_true]
    rw [if_neg (not_or.mpr ⟨a, b⟩), if_neg (not_or.mpr ⟨a1, b1⟩),
      if_neg (not_or.mpr ⟨a2, b2⟩), if_neg (not_or.mpr ⟨a3, b3⟩),
      if_neg (not_or.mpr ⟨a4, b4⟩)]

theorem finish_none {st : St} {acc rest : List Ch} {last : Ch} {d : Nat} (h : digit last = some d) :
    finish st acc last none rest = (st, acc, rest) := by
  simp [finish, End.or, (digit_facts h).q]

theorem finish_some {st : St} {acc acc' rest : List Ch} {prev last : Ch} {d : Nat} (h : digit last = some d) :
    finish st acc prev (some (acc', last)) rest = (st, acc', rest) := by
  simp [finish, End.or, (digit_facts h).q]

theorem continueRead_suffix {st : St} (hu : st.unsigned = false) (hl : st.long = false) (hf : st.float = false)
    {suf : List Ch} {long uns : Bool} (hs : Suffix suf long uns) {rest : List Ch} (hr : Ends rest) {last : Ch} {d : Nat}
    (hd : digit last = some d) (acc : List Ch) :
    continueRead st last acc none (suf ++ rest) = ({ st with long := long, unsigned := uns }, acc, rest) := by
  obtain ⟨u, po, l, f, r, pt, fa, ex⟩ := st
  simp only at hu hl hf
  subst hu hl hf
  cases hs with
  | none => rw [List.nil_append, continueRead_end hr, finish_none hd]
  | long h =>
    rcases h with rfl | rfl <;>
    · simp only [List.singleton_append]
      rw [continueRead]
      simp [St.setLong, End.or, continueRead_end hr, finish_some hd]
  | uns h =>
    rcases h with rfl | rfl <;>
    · simp only [List.singleton_append]
      rw [continueRead]
      simp [St.setUnsigned, End.or, continueRead_end hr, finish_some hd]
  | ulong h1 h2 =>
    rcases h1 with rfl | rfl <;> rcases h2 with rfl | rfl <;>
    · simp only [List.cons_append, List.nil_append]
      rw [continueRead]
      simp only [St.setUnsigned, St.setLong, End.or]
      simp
      rw [continueRead]
      simp [St.setUnsigned, St.setLong, End.or, continueRead_end hr, finish_some hd]
  | longu h1 h2 =>
    rcases h1 with rfl | rfl <;> rcases h2 with rfl | rfl <;>
    · simp only [List.cons_append, List.nil_append]
      rw [continueRead]
      simp only [St.setUnsigned, St.setLong, End.or]
      simp
      rw [continueRead]
      simp [St.setUnsigned, St.setLong, End.or, continueRead_end hr, finish_some hd]

/-- The prefix of an octal literal: the zero and the zeros directly after it are skipped. -/
theorem readPrefix_oct {st : St} (hr : st.radix = 0) {ok : Nat → Prop} {body : List Ch} {ds : List Nat}
    (hb : Body 8 ok body ds) (tl : List Ch) (htl : at0 tl ≠ 88#32 ∧ at0 tl ≠ 120#32 ∧ at0 tl ≠ 66#32 ∧ at0 tl ≠ 98#32 ∧
      at0 tl ≠ 46#32 ∧ at0 tl ≠ 48#32) : ∀ prev,
    ∃ s' ds', readPrefix st prev (48#32 :: (body ++ tl)) = ({ st with radix := 8 }, 48#32, s' ++ tl) ∧
      value 8 ds' = value 8 ds ∧ ((s' = [] ∧ ds' = []) ∨ Body 8 ok s' ds' ∨ ∃ s'', s' = 39#32 :: s'' ∧ Body 8 ok s'' ds') := by
  have hset : st.setRadix 8 = { st with radix := 8 } := by simp [St.setRadix, hr]
  have h48 : ∀ (prev : Ch) (s : List Ch), readPrefix st prev (48#32 :: s) =
      if at0 s = 88#32 ∨ at0 s = 120#32 then (st.setRadix 16, at0 s, s.tail)
      else if at0 s = 66#32 ∨ at0 s = 98#32 then (st.setRadix 2, at0 s, s.tail)
      else if at0 s = 46#32 then (st, prev, 48#32 :: s)
      else if at0 s = 48#32 then readPrefix st 48#32 s
      else (st.setRadix 8, 48#32, s) := by
    intro prev s; rw [readPrefix]; simp
  induction hb with
  | @one c d h1 h2 =>
    intro prev
    have f := digit_facts h1
    rw [h48]
    have hat : at0 ([c] ++ tl) = c := rfl
    rw [hat, if_neg f.x, if_neg (by rw [f.b]; omega), if_neg f.dot]
    by_cases h0 : c = 48#32
    · rw [if_pos h0]
      refine ⟨[], [], ?_, ?_, .inl ⟨rfl, rfl⟩⟩
      · subst h0
        rw [List.singleton_append, h48, if_neg (not_or.mpr ⟨htl.1, htl.2.1⟩),
          if_neg (not_or.mpr ⟨htl.2.2.1, htl.2.2.2.1⟩), if_neg htl.2.2.2.2.1, if_neg htl.2.2.2.2.2, hset]
        rfl
      · simp [value, f.zero.mp h0]
    · rw [if_neg h0, hset]
      exact ⟨[c], [d], rfl, rfl, .inr (.inl (.one h1 h2))⟩
  | @cons c d s ds h1 h2 hb ih =>
    intro prev
    have f := digit_facts h1
    rw [h48]
    have hat : at0 (c :: s ++ tl) = c := rfl
    rw [hat, if_neg f.x, if_neg (by rw [f.b]; omega), if_neg f.dot]
    by_cases h0 : c = 48#32
    · rw [if_pos h0]
      obtain ⟨s', ds', e, hv, hc⟩ := ih 48#32
      refine ⟨s', ds', ?_, ?_, hc⟩
      · subst h0; exact e
      · rw [hv]; simp [value, f.zero.mp h0]
    · rw [if_neg h0, hset]
      exact ⟨c :: s, d :: ds, rfl, rfl, .inr (.inl (.cons h1 h2 hb))⟩
  | @sep c d s ds h1 h2 hok hb ih =>
    intro prev
    have f := digit_facts h1
    rw [h48]
    have hat : at0 (c :: 39#32 :: s ++ tl) = c := rfl
    rw [hat, if_neg f.x, if_neg (by rw [f.b]; omega), if_neg f.dot]
    by_cases h0 : c = 48#32
    · rw [if_pos h0]
      refine ⟨39#32 :: s, ds, ?_, ?_, .inr (.inr ⟨s, rfl, hb⟩)⟩
      · subst h0
        rw [List.cons_append, h48]
        simp [at0, hset]
      · simp [value, f.zero.mp h0]
    · rw [if_neg h0, hset]
      exact ⟨c :: 39#32 :: s, d :: ds, rfl, rfl, .inr (.inl (.sep h1 h2 hok hb))⟩

theorem readPrefix_dec {st : St} {ok : Nat → Prop} {body : List Ch} {ds : List Nat} {radix : Nat}
    (hb : Body radix ok body ds) (h0 : ds.head? ≠ some 0) (tl : List Ch) (prev : Ch) :
    readPrefix st prev (body ++ tl) = (st, prev, body ++ tl) := by
  have key : ∀ (c : Ch) (d : Nat) (s : List Ch), digit c = some d → d ≠ 0 → readPrefix st prev (c :: s) = (st, prev, c :: s) := by
    intro c d s h hd
    have f := digit_facts h
    rw [readPrefix, if_neg f.m, if_neg f.p, if_neg (by rw [f.zero]; exact hd), if_neg f.z]
  cases hb with
  | one h1 h2 => exact key _ _ _ h1 (by rintro rfl; exact h0 rfl)
  | cons h1 h2 _ => exact key _ _ _ h1 (by rintro rfl; exact h0 rfl)
  | sep h1 h2 _ _ => exact key _ _ _ h1 (by rintro rfl; exact h0 rfl)

/-- The first character of a suffix or of what follows a literal. -/
theorem at0_tail {suf rest : List Ch} {long uns : Bool} (hs : Suffix suf long uns) (hr : Ends rest) :
    at0 (suf ++ rest) ≠ 88#32 ∧ at0 (suf ++ rest) ≠ 120#32 ∧ at0 (suf ++ rest) ≠ 66#32 ∧ at0 (suf ++ rest) ≠ 98#32 ∧
      at0 (suf ++ rest) ≠ 46#32 ∧ at0 (suf ++ rest) ≠ 48#32 := by
  cases hs with
  | none =>
    cases rest with
    | nil => decide
    | cons c s =>
      obtain ⟨h1, h2, h3⟩ := hr c s rfl
      refine ⟨?_, ?_, ?_, ?_, h2, ?_⟩ <;> · show c ≠ _; rintro rfl; revert h1; decide
  | long h => rcases h with rfl | rfl <;> simp [at0]
  | uns h => rcases h with rfl | rfl <;> simp [at0]
  | ulong h _ => rcases h with rfl | rfl <;> simp [at0]
  | longu h _ => rcases h with rfl | rfl <;> simp [at0]

/-- Everything the reader does on an integer literal, up to converting the digits. -/
theorem read_literal {radix : Nat} {pre body suf rest : List Ch} {ds : List Nat} {long uns : Bool} {st : St}
    (hst : st.radix = 0 ∧ st.unsigned = false ∧ st.long = false ∧ st.float = false)
    (hp : Prefix radix pre) (hb : Body radix (· < 10) body ds) (h0 : radix = 10 → ds.head? ≠ some 0)
    (hs : Suffix suf long uns) (hr : Ends rest) (prev : Ch) :
    ∃ st' prev' s text ds', readPrefix st prev (pre ++ body ++ suf ++ rest) = (st', prev', s) ∧
      continueRead st' prev' [] none s =
        ({ st with radix := if radix = 10 then 0 else radix, long := long, unsigned := uns }, text, rest) ∧
      Digs radix text ds' ∧ value radix ds' = value radix ds := by
  obtain ⟨hst, hu, hl, hf⟩ := hst
  cases hp with
  | dec =>
    have h15 : (15 : Nat) ∈ ds → st.radix ≠ 0 := by
      intro h
      have : ∀ {s : List Ch} {ds : List Nat}, Body 10 (· < 10) s ds → ∀ d ∈ ds, d < 10 := by
        intro s ds hb
        induction hb with
        | one _ h => simpa using h
        | cons _ h _ ih => intro d hd; exact (List.mem_cons.mp hd).elim (fun e => e ▸ h) (ih d)
        | sep _ h _ _ ih => intro d hd; exact (List.mem_cons.mp hd).elim (fun e => e ▸ h) (ih d)
      have := this hb 15 h
      omega
    obtain ⟨last, d, hd, e⟩ := continueRead_body (st := st) (by omega) hb h15 prev [] (suf ++ rest)
    refine ⟨st, prev, body ++ (suf ++ rest), body, ds, ?_, ?_, hb.digs, rfl⟩
    · rw [List.nil_append, List.append_assoc, readPrefix_dec hb (h0 rfl)]
    · rw [e, continueRead_suffix hu hl hf hs hr hd]
      obtain ⟨u, po, l, f, r, pt, fa, ex⟩ := st
      simp only at hst
      subst hst
      rfl
  | oct =>
    obtain ⟨s', ds', e, hv, hcase⟩ := readPrefix_oct hst hb (suf ++ rest) (at0_tail hs hr) prev
    have hpre : [48#32] ++ body ++ suf ++ rest = 48#32 :: (body ++ (suf ++ rest)) := by simp
    rw [hpre]
    have hz : digit 48#32 = some 0 := by decide
    rcases hcase with ⟨rfl, rfl⟩ | hb' | ⟨s'', rfl, hb'⟩
    · refine ⟨_, _, _, [], [], e, ?_, .nil, hv⟩
      rw [List.nil_append, continueRead_suffix (st := { st with radix := 8 }) hu hl hf hs hr hz]
      rfl
    · obtain ⟨last, d, hd, e2⟩ := continueRead_body (st := { st with radix := 8 }) (by simp) hb' (by simp) 48#32 [] (suf ++ rest)
      refine ⟨_, _, _, s', ds', e, ?_, hb'.digs, hv⟩
      rw [e2, continueRead_suffix (st := { st with radix := 8 }) hu hl hf hs hr hd]
      rfl
    · obtain ⟨last, d, hd, e2⟩ := continueRead_body (st := { st with radix := 8 }) (by simp) hb' (by simp) 39#32 [39#32] (suf ++ rest)
      refine ⟨_, _, _, 39#32 :: s'', ds', e, ?_, .sep hb'.digs, hv⟩
      rw [List.cons_append, continueRead_sep (by decide), List.nil_append, e2,
        continueRead_suffix (st := { st with radix := 8 }) hu hl hf hs hr hd]
      rfl
  | hex =>
    obtain ⟨last, d, hd, e2⟩ := continueRead_body (st := { st with radix := 16 }) (by simp) hb (by simp) 120#32 [] (suf ++ rest)
    refine ⟨{ st with radix := 16 }, 120#32, body ++ (suf ++ rest), body, ds, ?_, ?_, hb.digs, rfl⟩
    · show readPrefix st prev (48#32 :: 120#32 :: (body ++ suf ++ rest)) = _
      rw [readPrefix]; simp [at0, St.setRadix, hst]
    · rw [e2, continueRead_suffix (st := { st with radix := 16 }) hu hl hf hs hr hd]; rfl
  | hexU =>
    obtain ⟨last, d, hd, e2⟩ := continueRead_body (st := { st with radix := 16 }) (by simp) hb (by simp) 88#32 [] (suf ++ rest)
    refine ⟨{ st with radix := 16 }, 88#32, body ++ (suf ++ rest), body, ds, ?_, ?_, hb.digs, rfl⟩
    · show readPrefix st prev (48#32 :: 88#32 :: (body ++ suf ++ rest)) = _
      rw [readPrefix]; simp [at0, St.setRadix, hst]
    · rw [e2, continueRead_suffix (st := { st with radix := 16 }) hu hl hf hs hr hd]; rfl
  | bin =>
    obtain ⟨last, d, hd, e2⟩ := continueRead_body (st := { st with radix := 2 }) (by simp) hb (by simp) 98#32 [] (suf ++ rest)
    refine ⟨{ st with radix := 2 }, 98#32, body ++ (suf ++ rest), body, ds, ?_, ?_, hb.digs, rfl⟩
    · show readPrefix st prev (48#32 :: 98#32 :: (body ++ suf ++ rest)) = _
      rw [readPrefix]; simp [at0, St.setRadix, hst]
    · rw [e2, continueRead_suffix (st := { st with radix := 2 }) hu hl hf hs hr hd]; rfl
  | binU =>
    obtain ⟨last, d, hd, e2⟩ := continueRead_body (st := { st with radix := 2 }) (by simp) hb (by simp) 66#32 [] (suf ++ rest)
    refine ⟨{ st with radix := 2 }, 66#32, body ++ (suf ++ rest), body, ds, ?_, ?_, hb.digs, rfl⟩
    · show readPrefix st prev (48#32 :: 66#32 :: (body ++ suf ++ rest)) = _
      rw [readPrefix]; simp [at0, St.setRadix, hst]
    · rw [e2, continueRead_suffix (st := { st with radix := 2 }) hu hl hf hs hr hd]; rfl

theorem Spec.Prefix.radix_ge {radix : Nat} {pre : List Ch} (h : Prefix radix pre) : 2 ≤ radix := by cases h <;> decide

/-- The types and values of a settled integer literal. -/
theorem settle_int (st : St) (hf : st.float = false) (hp : st.point = false) (he : st.exponent = false) :
    st.settle = (if st.radix = 0 then 10 else st.radix,
      if st.unsigned then true else (if st.radix = 0 then 10 else st.radix) == 16, false) := by
  simp [St.settle, hf, hp, he]

/-! ## Literals with a decimal point -/

theorem continueRead_point {st : St} {prev : Ch} {acc s : List Ch} :
    continueRead st prev acc none (46#32 :: s) = continueRead st.setPoint 46#32 (acc ++ [46#32]) none s := by
  rw [continueRead]; simp

theorem continueRead_fsuffix {st : St} (hu : st.unsigned = false) (hl : st.long = false) (hf : st.float = false)
    {suf : List Ch} {size : Nat} (hs : FSuffix suf size) {rest : List Ch} (hr : Ends rest) {last : Ch} {d : Nat}
    (hd : digit last = some d) (hrad : st.radix = 0) (acc : List Ch) :
    continueRead st last acc none (suf ++ rest) = ({ st with long := size == 16, float := size == 4 }, acc, rest) := by
  obtain ⟨u, po, l, f, r, pt, fa, ex⟩ := st
  simp only at hu hl hf hrad
  subst hu hl hf hrad
  cases hs with
  | none => rw [List.nil_append, continueRead_end hr, finish_none hd]; rfl
  | float h =>
    rcases h with rfl | rfl <;>
    · simp only [List.singleton_append]
      rw [continueRead]
      simp [St.setFloat, End.or, continueRead_end hr, finish_some hd]
  | long h =>
    rcases h with rfl | rfl <;>
    · simp only [List.singleton_append]
      rw [continueRead]
      simp [St.setLong, End.or, continueRead_end hr, finish_some hd]

theorem fpush_digit {st : FSt} {c : Ch} {d : Nat} (h : digit c = some d) (hd : d < 10) (he : st.e = false) :
    fpush st c = some (some (if !st.point then { st with mant := st.mant * 10 + d, iz := if d > 0 then false else st.iz }
      else { st with mant := st.mant * 10 + d, exp := st.exp - 1,
                     pzc := if !st.pze && d = 0 && st.iz then st.pzc + 1 else st.pzc,
                     pze := if !st.pze && d = 0 && st.iz then st.pze else true })) := by
  have f := digit_facts h
  have hdv : (digitValue c).toNat = d := by rw [f.dv]; rfl
  have he' : ¬ (c = 69#32 ∨ c = 101#32) := by rw [f.e]; omega
  rw [fpush, if_neg f.dot, if_neg he', if_neg (not_or.mpr ⟨f.p, f.m⟩)]
  simp only [isDigitOf_of h hd, hdv, he, Bool.not_true, Bool.not_false, Bool.false_eq_true, if_false, if_true]
  cases st.point <;> rfl

theorem fscan_int {s : List Ch} {ds : List Nat} (h : Digs 10 s ds) : ∀ (st : FSt) (tl : List Ch), st.e = false →
    st.point = false → ∃ iz, fscan st (s ++ tl) = fscan { st with mant := st.mant * 10 ^ ds.length + value 10 ds, iz := iz } tl := by
  induction h with
  | nil => intro st tl _ _; exact ⟨st.iz, by simp [value]⟩
  | sep h ih =>
    intro st tl he hp
    obtain ⟨iz, e⟩ := ih st tl he hp
    exact ⟨iz, by rw [List.cons_append, fscan, if_pos rfl, e]⟩
  | @cons c d s ds hc hd _ ih =>
    intro st tl he hp
    have hpush := fpush_digit hc hd he
    simp only [hp, Bool.not_false, if_true] at hpush
    obtain ⟨iz, e⟩ := ih { st with mant := st.mant * 10 + d, iz := if d > 0 then false else st.iz } tl he hp
    refine ⟨iz, ?_⟩
    rw [List.cons_append, fscan, if_neg (digit_facts hc).q, hpush]
    dsimp only
    have hst : ({ st with mant := st.mant * 10 + d, point := false, iz := if d > 0 then false else st.iz } : FSt) =
        { st with mant := st.mant * 10 + d, iz := if d > 0 then false else st.iz } := by
      cases st; simp only at hp; subst hp; rfl
    rw [hst, e]
    simp only [step_total]

theorem fscan_frac {s : List Ch} {ds : List Nat} (h : Digs 10 s ds) : ∀ (st : FSt), st.e = false →
    st.point = true → st.pow = 0 → fscan st s = some (some (st.mant * 10 ^ ds.length + value 10 ds, st.exp - ds.length)) := by
  induction h with
  | nil => intro st _ _ hpow; simp [fscan, fcommit, hpow, value]
  | sep h ih => intro st he hp hpow; rw [fscan, if_pos rfl, ih st he hp hpow]
  | @cons c d s ds hc hd _ ih =>
    intro st he hp hpow
    have hpush := fpush_digit hc hd he
    simp only [hp, Bool.not_true, Bool.false_eq_true, if_false] at hpush
    rw [fscan, if_neg (digit_facts hc).q, hpush]
    dsimp only
    have hgen : ∀ (pzc : Nat) (pze : Bool), fscan
        { mant := st.mant * 10 + d, exp := st.exp - 1, point := true, e := st.e, ec := st.ec, pow := st.pow, pzc, pze, iz := st.iz } s
        = some (some ((st.mant * 10 + d) * 10 ^ ds.length + value 10 ds, st.exp - 1 - ds.length)) :=
      fun pzc pze => ih ⟨_, _, _, _, _, _, _, _, _⟩ he rfl hpow
    rw [hgen]
    simp only [step_total, List.length_cons]
    congr 3
    omega

/-! ## The radix is never ten while a literal is read -/

def NotTen (st : St) : Prop := st.radix ≠ 10 ∧ st.exponent = false

theorem NotTen.fail {st : St} (h : NotTen st) : NotTen st.fail := h

theorem NotTen.setRadix {st : St} {r : Nat} (hr : r ≠ 10) (h : NotTen st) : NotTen (st.setRadix r) := by
  unfold St.setRadix; split; exact h; exact ⟨hr, h.2⟩

theorem NotTen.set {st : St} (h : NotTen st) : (∀ b, NotTen (st.setPositive b)) ∧ NotTen st.setPoint ∧
    NotTen st.setUnsigned ∧ NotTen st.setLong ∧ NotTen st.setFloat := by
  refine ⟨fun b => ?_, ?_, ?_, ?_, ?_⟩
  · unfold St.setPositive; split <;> exact h
  · unfold St.setPoint; split <;> exact h
  · unfold St.setUnsigned; split <;> exact h
  · unfold St.setLong; split <;> exact h
  · unfold St.setFloat; split <;> exact h

theorem NotTen.ofPrefix (s : List Ch) : ∀ (st : St) (prev : Ch), NotTen st → NotTen (readPrefix st prev s).1 := by
  induction s with
  | nil => intro st prev h; exact h
  | cons c s ih =>
    intro st prev h
    rw [readPrefix]
    split
    · exact ih _ _ (h.set.1 _)
    · split
      · exact ih _ _ (h.set.1 _)
      · split
        · split
          · exact h.setRadix (by decide)
          · split
            · exact h.setRadix (by decide)
            · split
              · exact h
              · split
                · exact ih _ _ h
                · exact h.setRadix (by decide)
        · split <;> exact h

theorem NotTen.finish {st : St} (h : NotTen st) (acc : List Ch) (prev : Ch) (e : End) (left : List Ch) :
    NotTen (finish st acc prev e left).1 := by
  unfold Numeric.finish
  split
  · dsimp only; split <;> exact h
  · exact h

theorem NotTen.ofRead (s : List Ch) : ∀ (st : St) (prev : Ch) (acc : List Ch) (e : End), NotTen st →
    NotTen (continueRead st prev acc e s).1 := by
  induction s with
  | nil => intro st prev acc e h; exact h.finish ..
  | cons c s ih =>
    intro st prev acc e h
    have hd : NotTen (if (!isWord c) = true then Numeric.finish st acc prev e (c :: s)
        else continueRead (if e.isSome = true then st.fail else st) c (acc ++ [c]) e s).1 := by
      split
      · exact h.finish ..
      · apply ih; split <;> exact h
    obtain ⟨h1, h2, h3, h4, h5⟩ := h.set
    rw [continueRead]
    dsimp only
    split
    · exact ih _ _ _ _ h2
    · split
      · rw [if_neg h.1]; exact hd
      · split
        · split
          · exact ih _ _ _ _ h5
          · exact hd
        · split
          · exact ih _ _ _ _ h4
          · split
            · exact ih _ _ _ _ h3
            · split
              · exact ih _ _ _ _ (h.setRadix (by decide))
              · split
                · apply ih; split <;> exact h
                · exact hd

end Verif.Numeric
