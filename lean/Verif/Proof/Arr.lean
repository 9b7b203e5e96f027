import Verif.Model.Arr
import Verif.Spec.Arr

/-! Helper lemmas for arrays. -/

namespace Verif.Arr

theorem int32_ok {x : Int} (h0 : 0 ≤ x) (h1 : x < 2 ^ 31) : int32 x = some x := by
  rw [int32, if_pos (by omega)]

theorem product_pos : ∀ ls : List Int, (∀ l ∈ ls, 1 ≤ l) → 1 ≤ product ls
  | [], _ => by simp [product]
  | l :: ls, h => by
    have h1 := product_pos ls (fun x hx => h x (List.mem_cons_of_mem _ hx))
    have h2 := h l (by simp)
    have : product (l :: ls) = l * product ls := rfl
    rw [this]
    have := Int.mul_le_mul h2 h1 (by omega) (by omega)
    omega

theorem product_append (xs ys : List Int) : product (xs ++ ys) = product xs * product ys := by
  induction xs with
  | nil => simp [product]
  | cons x xs ih =>
    have h1 : product (x :: xs ++ ys) = x * product (xs ++ ys) := rfl
    have h2 : product (x :: xs) = x * product xs := rfl
    rw [h1, h2, ih, Int.mul_assoc]

theorem product_reverse (xs : List Int) : product xs.reverse = product xs := by
  induction xs with
  | nil => rfl
  | cons x xs ih =>
    have h2 : product (x :: xs) = x * product xs := rfl
    have h3 : product [x] = x := by simp [product]
    rw [List.reverse_cons, product_append, ih, h2, h3, Int.mul_comm]

/-- The place, from the last dimension on. -/
def place : List (Int × Int) → Int
  | [] => 0
  | p :: rest => p.2 + p.1 * place rest

theorem place_foldr (ps : List (Int × Int)) : ps.foldr (fun p acc => acc * p.1 + p.2) 0 = place ps := by
  induction ps with
  | nil => rfl
  | cons p ps ih => rw [List.foldr_cons, ih, place, Int.mul_comm, Int.add_comm]

theorem zip_reverse : ∀ (xs ys : List Int), xs.length = ys.length →
    (xs.zip ys).reverse = xs.reverse.zip ys.reverse
  | [], [], _ => rfl
  | x :: xs, y :: ys, h => by
    simp only [List.length_cons, Nat.add_right_cancel_iff] at h
    rw [List.zip_cons_cons, List.reverse_cons, zip_reverse xs ys h, List.reverse_cons, List.reverse_cons,
      List.zip_append (by simp [h])]
    rfl

theorem rowMajor_place (ls is : List Int) (h : ls.length = is.length) :
    rowMajor ls is = place (ls.reverse.zip is.reverse) := by
  rw [rowMajor, List.foldl_eq_foldr_reverse, place_foldr, zip_reverse ls is h]

/-- Within its dimensions: from the last dimension on. -/
def VZ (ps : List (Int × Int)) : Prop := ∀ p ∈ ps, 0 ≤ p.2 ∧ p.2 < p.1

theorem place_bound : ∀ ps : List (Int × Int), VZ ps → 0 ≤ place ps ∧ place ps < product (ps.map (·.1))
  | [], _ => by simp [place, product]
  | p :: ps, h => by
    have ih := place_bound ps (fun q hq => h q (List.mem_cons_of_mem _ hq))
    have hp := h p (by simp)
    have e : product ((p :: ps).map (·.1)) = p.1 * product (ps.map (·.1)) := rfl
    rw [e, place]
    constructor
    · have := Int.mul_nonneg (show (0 : Int) ≤ p.1 by omega) ih.1; omega
    · have h1 : p.1 * (place ps + 1) ≤ p.1 * product (ps.map (·.1)) :=
        Int.mul_le_mul_of_nonneg_left (by omega) (by omega)
      rw [Int.mul_add, Int.mul_one] at h1
      omega

theorem place_inj : ∀ (ls is js : List Int), ls.length = is.length → ls.length = js.length →
    VZ (ls.zip is) → VZ (ls.zip js) → place (ls.zip is) = place (ls.zip js) → is = js
  | [], [], [], _, _, _, _, _ => rfl
  | l :: ls, i :: is, j :: js, h1, h2, hi, hj, h => by
    simp only [List.length_cons, Nat.add_right_cancel_iff] at h1 h2
    simp only [List.zip_cons_cons, place] at h
    have vi := hi (l, i) (by simp)
    have vj := hj (l, j) (by simp)
    simp only at vi vj
    have hm : (i + l * place (ls.zip is)) % l = (j + l * place (ls.zip js)) % l := by rw [h]
    rw [Int.add_mul_emod_self_left, Int.add_mul_emod_self_left, Int.emod_eq_of_lt vi.1 vi.2,
      Int.emod_eq_of_lt vj.1 vj.2] at hm
    subst hm
    have hp : place (ls.zip is) = place (ls.zip js) := by
      have : l * place (ls.zip is) = l * place (ls.zip js) := by omega
      exact Int.eq_of_mul_eq_mul_left (by omega) this
    rw [place_inj ls is js h1 h2 (fun q hq => hi q (List.mem_cons_of_mem _ hq))
      (fun q hq => hj q (List.mem_cons_of_mem _ hq)) hp]

/-! ## The header -/

/-- The products in the header. -/
def cumsP : List Int → Int → List Int
  | [], _ => []
  | l :: ls, base => (l * base) :: cumsP ls (l * base)

theorem cumsP_length : ∀ (ls : List Int) (b : Int), (cumsP ls b).length = ls.length
  | [], _ => rfl
  | l :: ls, b => by simp [cumsP, cumsP_length ls]

theorem cumsP_get : ∀ (ls : List Int) (b : Int) (k : Nat), k < ls.length →
    (cumsP ls b)[k]? = some (b * product (ls.take (k + 1)))
  | l :: ls, b, 0, _ => by
    simp [cumsP, product, Int.mul_comm]
  | l :: ls, b, k + 1, h => by
    rw [cumsP, List.getElem?_cons_succ, cumsP_get ls _ k (by simpa using h), List.take_succ_cons]
    have : product (l :: ls.take (k + 1)) = l * product (ls.take (k + 1)) := rfl
    rw [this, Int.mul_comm l b, Int.mul_assoc]

theorem cumulate_ok : ∀ (ls : List Int) (b : Int), (∀ l ∈ ls, 1 ≤ l) → 1 ≤ b → b * product ls < 2 ^ 31 →
    cumulate ls b = some (cumsP ls b)
  | [], _, _, _, _ => rfl
  | l :: ls, b, h, hb, hp => by
    have hl := h l (by simp)
    have hr := product_pos ls (fun x hx => h x (List.mem_cons_of_mem _ hx))
    have e : product (l :: ls) = l * product ls := rfl
    have hlb : 1 ≤ l * b := by
      have := Int.mul_le_mul hl hb (by omega) (by omega); omega
    have hp' : (l * b) * product ls < 2 ^ 31 := by
      rw [e, ← Int.mul_assoc, Int.mul_comm b l] at hp; exact hp
    have hle : l * b ≤ (l * b) * product ls := by
      have := Int.mul_le_mul_of_nonneg_left hr (show 0 ≤ l * b by omega)
      rw [Int.mul_one] at this; exact this
    rw [cumulate, int32_ok (by omega) (by omega)]
    simp only [Option.bind_eq_bind, Option.bind_some]
    rw [cumulate_ok ls (l * b) (fun x hx => h x (List.mem_cons_of_mem _ hx)) hlb hp']
    rfl

theorem multiply_ok : ∀ (ls : List Int) (b : Int), (∀ l ∈ ls, 1 ≤ l) → 1 ≤ b → b * product ls < 2 ^ 31 →
    multiply b ls = some (b * product ls)
  | [], b, _, _, _ => by simp [multiply, product]
  | l :: ls, b, h, hb, hp => by
    have hl := h l (by simp)
    have hr := product_pos ls (fun x hx => h x (List.mem_cons_of_mem _ hx))
    have e : product (l :: ls) = l * product ls := rfl
    have hlb : 1 ≤ b * l := by
      have := Int.mul_le_mul hb hl (by omega) (by omega); omega
    have hp' : (b * l) * product ls < 2 ^ 31 := by
      rw [e, ← Int.mul_assoc] at hp; exact hp
    have hle : b * l ≤ (b * l) * product ls := by
      have := Int.mul_le_mul_of_nonneg_left hr (show 0 ≤ b * l by omega)
      rw [Int.mul_one] at this; exact this
    rw [multiply, int32_ok (by omega) (by omega)]
    simp only [Option.bind_eq_bind, Option.bind_some]
    rw [multiply_ok ls (b * l) (fun x hx => h x (List.mem_cons_of_mem _ hx)) hlb hp', e, Int.mul_assoc]

/-! ## Indices -/

/-- The sum of the products. -/
def sumProd : List Int → List Int → Int
  | i :: is, c :: cs => i * c + sumProd is cs
  | _, _ => 0

theorem sumProd_nonneg : ∀ (is cs : List Int), (∀ i ∈ is, 0 ≤ i) → (∀ c ∈ cs, 0 ≤ c) → 0 ≤ sumProd is cs
  | [], _, _, _ => by simp [sumProd]
  | _ :: _, [], _, _ => by simp [sumProd]
  | i :: is, c :: cs, hi, hc => by
    rw [sumProd]
    have h1 := Int.mul_nonneg (hi i (by simp)) (hc c (by simp))
    have h2 := sumProd_nonneg is cs (fun x hx => hi x (List.mem_cons_of_mem _ hx))
      (fun x hx => hc x (List.mem_cons_of_mem _ hx))
    omega

theorem sumProd_cums : ∀ (l : Int) (ls is : List Int) (b : Int), ls.length = is.length →
    sumProd is (cumsP (l :: ls) b) = b * l * place (ls.zip is)
  | l, [], [], b, _ => by simp [sumProd, place]
  | l, l' :: ls, i :: is, b, h => by
    simp only [List.length_cons, Nat.add_right_cancel_iff] at h
    rw [cumsP, sumProd, sumProd_cums l' ls is (l * b) h, List.zip_cons_cons, place]
    simp only
    rw [Int.mul_add, Int.mul_comm i, Int.mul_comm l b, Int.mul_assoc (b * l) l']

theorem sumProd_split : ∀ (n : Nat) (is cs : List Int), n ≤ is.length → n ≤ cs.length →
    sumProd is cs = sumProd (is.take n) (cs.take n) + sumProd (is.drop n) (cs.drop n)
  | 0, is, cs, _, _ => by simp [sumProd]
  | n + 1, i :: is, c :: cs, h1, h2 => by
    simp only [List.length_cons, Nat.add_le_add_iff_right] at h1 h2
    simp only [List.take_succ_cons, List.drop_succ_cons, sumProd]
    rw [sumProd_split n is cs h1 h2]; omega

theorem mulIndex_ok : ∀ (n : Nat) (is cs : List Int), n ≤ is.length → n ≤ cs.length → (∀ i ∈ is, 0 ≤ i) →
    (∀ c ∈ cs, 0 ≤ c) → sumProd (is.take n) (cs.take n) < 2 ^ 31 →
    mulIndex n is cs = some (sumProd (is.take n) (cs.take n), is.drop n)
  | 0, is, cs, _, _, _, _, _ => by simp [mulIndex, sumProd]
  | n + 1, i :: is, c :: cs, h1, h2, hi, hc, hb => by
    simp only [List.length_cons, Nat.add_le_add_iff_right] at h1 h2
    simp only [List.take_succ_cons, List.drop_succ_cons, sumProd] at hb ⊢
    have p1 := Int.mul_nonneg (hi i (by simp)) (hc c (by simp))
    have p2 := sumProd_nonneg (is.take n) (cs.take n)
      (fun x hx => hi x (List.mem_cons_of_mem _ (List.mem_of_mem_take hx)))
      (fun x hx => hc x (List.mem_cons_of_mem _ (List.mem_of_mem_take hx)))
    rw [mulIndex, int32_ok p1 (by omega)]
    simp only [Option.bind_eq_bind, Option.bind_some]
    rw [mulIndex_ok n is cs h1 h2 (fun x hx => hi x (List.mem_cons_of_mem _ hx))
      (fun x hx => hc x (List.mem_cons_of_mem _ hx)) (by omega)]
    simp only [Option.bind_some]
    rw [int32_ok (by omega) (by omega)]
    rfl

theorem arrayIndex_ok : ∀ (fuel : Nat) (index : Int) (is cs : List Int), is.length < fuel → is.length ≤ cs.length →
    (is.length % 8 ≠ 1) → 0 ≤ index → (∀ i ∈ is, 0 ≤ i) → (∀ c ∈ cs, 0 ≤ c) → index + sumProd is cs < 2 ^ 31 →
    arrayIndex fuel index (is.length : Nat) is cs = some (index + sumProd is cs)
  | 0, _, _, _, h, _, _, _, _, _, _ => by omega
  | fuel + 1, index, is, cs, hf, hl, hm, h0, hi, hc, hb => by
    rw [arrayIndex]
    by_cases hz : is.length = 0
    · have : is = [] := List.length_eq_zero_iff.mp hz
      subst this
      simp [sumProd]
    · rw [if_neg (by omega)]
      by_cases h8 : 2 ≤ (is.length : Int) ∧ (is.length : Int) ≤ 8
      · rw [if_pos h8, Int.toNat_natCast]
        have hs : sumProd (is.take is.length) (cs.take is.length) = sumProd is cs := by
          have := sumProd_split is.length is cs (Nat.le_refl _) hl
          simp only [List.drop_length, sumProd] at this
          omega
        have hnn := sumProd_nonneg is cs hi hc
        rw [mulIndex_ok is.length is cs (Nat.le_refl _) hl hi hc (by rw [hs]; omega), hs]
        simp only [Option.bind_eq_bind, Option.bind_some]
        exact int32_ok (by omega) hb
      · rw [if_neg h8]
        have hge : 8 < is.length := by omega
        have hsp := sumProd_split 8 is cs (by omega) (by omega)
        have p1 := sumProd_nonneg (is.take 8) (cs.take 8) (fun x hx => hi x (List.mem_of_mem_take hx))
          (fun x hx => hc x (List.mem_of_mem_take hx))
        have p2 := sumProd_nonneg (is.drop 8) (cs.drop 8) (fun x hx => hi x (List.mem_of_mem_drop hx))
          (fun x hx => hc x (List.mem_of_mem_drop hx))
        rw [mulIndex_ok 8 is cs (by omega) (by omega) hi hc (by omega)]
        simp only [Option.bind_eq_bind, Option.bind_some]
        rw [int32_ok (by omega) (by omega)]
        simp only [Option.bind_some]
        have ih := arrayIndex_ok fuel (index + sumProd (is.take 8) (cs.take 8)) (is.drop 8) (cs.drop 8)
          (by rw [List.length_drop]; omega) (by rw [List.length_drop, List.length_drop]; omega)
          (by rw [List.length_drop]; omega) (by omega) (fun x hx => hi x (List.mem_of_mem_drop hx))
          (fun x hx => hc x (List.mem_of_mem_drop hx)) (by omega)
        have hd : ((is.drop 8).length : Int) = (is.length : Int) - 8 := by rw [List.length_drop]; omega
        rw [hd] at ih
        rw [ih, hsp]
        congr 1; omega

/-- Without the case for 1 the loop does not end. -/
theorem arrayIndex_bad : ∀ (fuel : Nat) (index dimension : Int) (is cs : List Int), dimension % 8 = 1 →
    arrayIndex fuel index dimension is cs = none
  | 0, _, _, _, _, _ => rfl
  | fuel + 1, index, dimension, is, cs, h => by
    rw [arrayIndex, if_neg (by omega), if_neg (by omega)]
    cases mulIndex 8 is cs with
    | none => rfl
    | some r =>
      simp only [Option.bind_eq_bind, Option.bind_some]
      cases int32 (index + r.1) with
      | none => rfl
      | some i =>
        simp only [Option.bind_some]
        exact arrayIndex_bad fuel i (dimension - 8) r.2 (cs.drop 8) (by omega)

theorem cumsP_nonneg : ∀ (ls : List Int) (b : Int), (∀ l ∈ ls, 1 ≤ l) → 1 ≤ b → ∀ c ∈ cumsP ls b, 0 ≤ c
  | [], _, _, _, c, hc => by simp [cumsP] at hc
  | l :: ls, b, h, hb, c, hc => by
    have hl := h l (by simp)
    have hlb : 1 ≤ l * b := by
      have := Int.mul_le_mul hl hb (by omega) (by omega); omega
    rw [cumsP] at hc
    rcases List.mem_cons.mp hc with rfl | hc
    · omega
    · exact cumsP_nonneg ls (l * b) (fun x hx => h x (List.mem_cons_of_mem _ hx)) hlb c hc

theorem mem_zip_of_right : ∀ (ls is : List Int) (i : Int), ls.length = is.length → i ∈ is → ∃ l, (l, i) ∈ ls.zip is
  | l :: ls, j :: is, i, h, hi => by
    simp only [List.length_cons, Nat.add_right_cancel_iff] at h
    rcases List.mem_cons.mp hi with rfl | hi
    · exact ⟨l, by simp⟩
    · obtain ⟨l', hl'⟩ := mem_zip_of_right ls is i h hi
      exact ⟨l', List.mem_cons_of_mem _ hl'⟩
  | [], [], i, _, hi => by simp at hi

end Verif.Arr
