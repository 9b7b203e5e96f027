import Verif.Proof.InitRun
import Verif.Props.Arr

/-!
# Arrays with initialisers: properties
-/

namespace Verif.Init.Props

open Verif.Init

variable {A S X : Type}

/-! ## Shapes -/

/-- **C108.**  An initialiser is accepted exactly if braces at the same depth have the same number of elements and are
not mixed with expressions, and if there are at most 32 levels. -/
theorem check_shape (i : Inits A) : i.check = .ok () ↔ ∃ ns, Shaped ns i ∧ ns.length ≤ 32 :=
  check_iff i

/-- **C108.**  The shape of an initialiser is unique. -/
theorem shape_unique (i : Inits A) (ns ms : List Nat) (h : Shaped ns i) (h' : Shaped ms i) : ns = ms := by
  have e : ∀ d, ns[d]? = ms[d]? := fun d =>
    (getLength_shaped ns i h d).symm.trans (getLength_shaped ms i h' d)
  exact List.ext_getElem? e

/-- **C108.**  A length that is left out is the length of the shape at its dimension; if there is none, the
creation is rejected. -/
theorem lengths_shape (i : Inits A) (ns : List Nat) (h : Shaped ns i) (d : Nat) : getLength d i = ns[d]? :=
  getLength_shaped ns i h d

theorem fill_none (i : Inits A) (ns : List Nat) (h : Shaped ns i) : ∀ (k d : Nat),
    d + k ≤ ns.length → fill (some i) d (List.replicate k none)
      = some (((ns.drop d).take k).map fun n => .lit 4 (BitVec.ofNat 64 n))
  | 0, d, _ => by simp [fill]
  | k + 1, d, hk => by
    rw [List.replicate_succ, fill]
    simp only [Option.bind_some]
    rw [lengths_shape i ns h d, List.getElem?_eq_getElem (by omega), fill_none i ns h k (d + 1) (by omega)]
    rw [List.drop_eq_getElem_cons (show d < ns.length by omega)]
    rfl

theorem fill_missing (i : Inits A) (ns : List Nat) (h : Shaped ns i) : ∀ (k d : Nat),
    ns.length < d + k → d ≤ ns.length → fill (some i) d (List.replicate k none) = none
  | 0, d, h1, h2 => by omega
  | k + 1, d, h1, h2 => by
    rw [List.replicate_succ, fill]
    simp only [Option.bind_some]
    rw [lengths_shape i ns h d]
    by_cases hd : d < ns.length
    · rw [List.getElem?_eq_getElem hd, fill_missing i ns h k (d + 1) (by omega) (by omega)]; rfl
    · rw [List.getElem?_eq_none (by omega)]

/-- **C108.**  Without lengths: accepted exactly if there are not more dimensions than levels of braces. -/
theorem accepted_iff (n : New A) (i : Inits A) (ns : List Nat) (d : Nat) (hi : n.init = some i) (hs : Shaped ns i)
    (h32 : ns.length ≤ 32) (hn : n.lengths = List.replicate d none) :
    n.accept.isSome ↔ d ≤ ns.length := by
  have hc := (check_shape i).mpr ⟨ns, hs, h32⟩
  rw [New.accept, hn, hi]
  constructor
  · intro h
    by_cases hd : d ≤ ns.length
    · exact hd
    · rw [fill_missing i ns hs d 0 (by omega) (by omega)] at h; simp at h
  · intro hd
    rw [fill_none i ns hs d 0 (by omega)]
    simp [hc]

/-- **C108.**  Whatever its lengths are, an accepted creation has an initialiser with a shape, or none. -/
theorem accepted_shape (n : New A) (a : Accepted A) (i : Inits A) (hi : n.init = some i) (h : n.accept = some a) :
    ∃ ns, Shaped ns i ∧ ns.length ≤ 32 := by
  rw [New.accept, hi] at h
  split at h
  · exact nomatch h
  · simp only at h
    split at h
    · exact nomatch h
    · rename_i hc
      exact (check_shape i).mp hc

/-- **C108.**  A creation that leaves a length out has an initialiser. -/
theorem needs_initialiser (n : New A) (hi : n.init = none) (hn : none ∈ n.lengths) : n.accept = none := by
  have : ∀ (ls : List (Option (Expr A))) (d : Nat), none ∈ ls → fill (none : Option (Inits A)) d ls = none := by
    intro ls
    induction ls with
    | nil => intro d h; simp at h
    | cons l ls ih =>
      intro d h
      cases l with
      | none => simp [fill]
      | some e => rw [fill, ih (d + 1) (by simpa using h)]; rfl
  rw [New.accept, hi, this _ _ hn]

theorem enter_overflow {dims : List Dim} {d n : Nat} {f : Bool} (h : dims.length = maxDimension) :
    enter dims d n f ≠ .error .overflow := by
  rw [enter]
  split
  · simp
  · rename_i x hx
    have := (List.getElem?_eq_some_iff.mp hx).1
    repeat' split
    all_goals simp
    omega

mutual

theorem check_elem_overflow : ∀ (e : Elem A) (t : Bool) (d : Nat) (dims : List Dim), dims.length = maxDimension →
    e.check t d dims ≠ .error .overflow
  | .expr _, t, d, dims, _ => by rw [Elem.check]; split <;> simp
  | .init i, t, d, dims, h => by
    rw [Elem.check]
    split
    · split
      · rename_i x hx
        intro hc
        rw [Except.error.injEq] at hc
        subst hc
        exact enter_overflow h hx
      · rename_i dims1 t1 he
        exact check_rows_overflow i _ _ _ ((enter_ok he).2.2.1.trans h)
    · simp

theorem check_rows_overflow : ∀ (i : Inits A) (t : Bool) (d : Nat) (dims : List Dim), dims.length = maxDimension →
    i.checkAll t d dims ≠ .error .overflow
  | .one e, t, d, dims, h => check_elem_overflow e t d dims h
  | .more e r, t, d, dims, h => by
    rw [Inits.checkAll]
    split
    · rename_i x hx
      intro hc
      rw [Except.error.injEq] at hc
      subst hc
      exact check_elem_overflow e t d dims h hx
    · rename_i dims1 he
      obtain ⟨_, _, _, _, hk⟩ := check_sound_elem e _ _ _ _ he
      exact check_rows_overflow r t d dims1 (hk.1.trans h)

end

/-- **C108 (refuted).**  The error for too many levels is never reported … -/
theorem overflow_refuted (i : Inits A) : i.check ≠ .error .overflow := by
  rw [Inits.check]
  split
  · rename_i x hx
    intro hc
    rw [Except.error.injEq] at hc
    subst hc
    exact enter_overflow (by simp) hx
  · rename_i dims t he
    split
    · rename_i x hx
      intro hc
      rw [Except.error.injEq] at hc
      subst hc
      exact check_rows_overflow i t 0 dims ((enter_ok he).2.2.1.trans (by simp)) hx
    · simp

/-- So many levels of braces. -/
def nest : Nat → Inits Nat
  | 0 => .one (.expr (.lit 4 7))
  | n + 1 => .one (.init (nest n))

theorem nest_shaped : ∀ n, Shaped (List.replicate (n + 1) 1) (nest n)
  | 0 => .mk 1 [] _ rfl (.one _ _ (.expr _))
  | n + 1 => .mk 1 _ _ rfl (.one _ _ (.init _ _ _ (nest_shaped n)))

/-- … the 33rd level is looked up behind the end of the table. -/
theorem levels_refuted : nest 32 |>.check |> (· matches .error .outside) := by decide

example : Shaped (List.replicate 32 1) (nest 31) ∧ (nest 31).check = .ok () :=
  ⟨nest_shaped 31, (check_shape _).mpr ⟨_, nest_shaped 31, by decide⟩⟩

/-! ## Elements -/

theorem prod_cast : ∀ ns : List Nat, Arr.product (ns.map Int.ofNat) = (prodN ns : Nat)
  | [] => rfl
  | n :: ns => by
    have : Arr.product ((n :: ns).map Int.ofNat) = (n : Int) * Arr.product (ns.map Int.ofNat) := rfl
    rw [this, prod_cast ns, prodN, Int.natCast_mul]

theorem foldl_place : ∀ (ns ks : List Nat) (acc : Int), InN ns ks →
    ((ns.map Int.ofNat).zip (ks.map Int.ofNat)).foldl (fun place p => place * p.1 + p.2) acc
      = acc * (prodN ns : Nat) + (placeN ns ks : Nat)
  | [], [], acc, _ => by simp [prodN, placeN]
  | n :: ns, k :: ks, acc, h => by
    have e : (acc * (n : Int) + (k : Int)) * ((prodN ns : Nat) : Int) + ((placeN ns ks : Nat) : Int)
        = acc * ((prodN (n :: ns) : Nat) : Int) + ((placeN (n :: ns) (k :: ks) : Nat) : Int) := by
      rw [prodN, placeN, Int.natCast_add, Int.natCast_mul, Int.natCast_mul, Int.add_mul, Int.mul_assoc,
        Int.add_assoc]
    rw [List.map_cons, List.map_cons, List.zip_cons_cons, List.foldl_cons, foldl_place ns ks _ h.2]
    exact e
  | [], _ :: _, _, h => h.elim
  | _ :: _, [], _, h => h.elim

theorem place_cast (ns ks : List Nat) (h : InN ns ks) :
    Arr.rowMajor (ns.map Int.ofNat) (ks.map Int.ofNat) = (placeN ns ks : Nat) := by
  rw [Arr.rowMajor, foldl_place ns ks 0 h]; simp

theorem valid_in : ∀ (ns ks : List Nat), Arr.Valid (ns.map Int.ofNat) (ks.map Int.ofNat) → InN ns ks
  | [], [], _ => trivial
  | n :: ns, k :: ks, h => by
    refine ⟨?_, valid_in ns ks ⟨by simpa using h.1, fun p hp => h.2 p (List.mem_cons_of_mem _ hp)⟩⟩
    have := (h.2 (Int.ofNat n, Int.ofNat k) (by simp)).2
    simp only [Int.ofNat_eq_natCast] at this
    omega
  | [], _ :: _, h => by simp [Arr.Valid] at h
  | _ :: _, [], h => by simp [Arr.Valid] at h

theorem in_valid : ∀ (ns ks : List Nat), InN ns ks → Arr.Valid (ns.map Int.ofNat) (ks.map Int.ofNat)
  | [], [], _ => ⟨rfl, by simp⟩
  | n :: ns, k :: ks, h => by
    have ih := in_valid ns ks h.2
    refine ⟨by simpa using ih.1, fun p hp => ?_⟩
    simp only [List.map_cons, List.zip_cons_cons, List.mem_cons] at hp
    rcases hp with rfl | hp
    · have := h.1
      simp only [Int.ofNat_eq_natCast]
      omega
    · exact ih.2 p hp
  | [], _ :: _, h => h.elim
  | _ :: _, [], h => h.elim

/-- Every place below the number of elements has an index. -/
theorem place_onto : ∀ (ns : List Nat) (j : Nat), j < prodN ns → ∃ ks, InN ns ks ∧ placeN ns ks = j
  | [], j, h => ⟨[], trivial, by simp [prodN] at h; simp [placeN, h]⟩
  | n :: ns, j, h => by
    have hp : 0 < prodN ns := by
      rcases Nat.eq_zero_or_pos (prodN ns) with h0 | h0
      · rw [prodN, h0, Nat.mul_zero] at h; omega
      · exact h0
    obtain ⟨ks, h1, h2⟩ := place_onto ns (j % prodN ns) (Nat.mod_lt _ hp)
    refine ⟨j / prodN ns :: ks, ⟨?_, h1⟩, ?_⟩
    · rw [Nat.div_lt_iff_lt_mul hp]; exact h
    · rw [placeN, h2, Nat.mul_comm, Nat.div_add_mod]

theorem shaped_pos : ∀ (ns : List Nat) (i : Inits A), Shaped ns i → ∀ n ∈ ns, 1 ≤ n
  | _, i, .mk n [] _ hs _, m, hm => by
    simp at hm
    subst hm; subst hs
    cases i <;> simp [Inits.size]
  | _, i, .mk n (n' :: ns) _ hs hr, m, hm => by
    rw [List.mem_cons] at hm
    rcases hm with rfl | hm
    · subst hs
      cases i <;> simp [Inits.size]
    · cases hr with
      | one _ e h => cases h with | init _ _ j hj => exact shaped_pos (n' :: ns) j hj m hm
      | more _ e r h _ => cases h with | init _ _ j hj => exact shaped_pos (n' :: ns) j hj m hm

/-- All constants of an initialiser have a size. -/
def ConstantsOf (size : Nat) (i : Inits A) : Prop :=
  ∀ ks w v, (Elem.init i).at ks = some (.lit w v) → w = size

theorem fits_each (i : Inits A) (ns : List Nat) (h : Shaped ns i) (size : Nat) (hc : ConstantsOf size i) :
    Fits size i.each := by
  obtain ⟨n, ms, _, hs, hr⟩ := h
  have he := each_elem (.init i) (n :: ms) (.init _ _ _ (.mk _ _ _ hs hr))
  intro w v hm
  obtain ⟨j, hj, e⟩ := List.mem_iff_getElem.mp hm
  obtain ⟨ks, h1, h2⟩ := place_onto (n :: ms) j (by rw [← he.1]; exact hj)
  have h3 := he.2 ks h1
  rw [h2] at h3
  have h4 : (Elem.init i).each[j]? = some (.lit w v) := by
    rw [Elem.each, List.getElem?_eq_getElem hj, e]
  exact hc ks w v (h3.symm.trans h4)

/-- The memory of `new_array` is enough for so many elements of this size. -/
theorem slots_room (w : Nat) (hw : Size w) (n : Nat) (hn : n < 2 ^ 31) : n ≤ Arr.bytesFor w n / w := by
  have hu : Arr.unitAlign 1 w = w := by rcases hw with rfl | rfl | rfl | rfl <;> rfl
  have h8 : w ≤ 8 := by rcases hw with rfl | rfl | rfl | rfl <;> decide
  have hpos : 0 < w := by rcases hw with rfl | rfl | rfl | rfl <;> decide
  rw [Arr.bytesFor, hu]
  have hm : n * w < 2 ^ 35 := by
    have : n * w ≤ n * 8 := Nat.mul_le_mul_left _ h8
    omega
  have e : ((n : Int) * (w : Int) % 2 ^ 64).toNat = n * w := by
    rw [← Int.natCast_mul, Int.emod_eq_of_lt (by omega) (by omega), Int.toNat_natCast]
  rw [e, Nat.le_div_iff_mul_le hpos, Nat.mod_eq_of_lt (by rw [Arr.alignf]; omega), Arr.alignf]
  omega

theorem ofNat_int (n : Nat) (h : n < 2 ^ 31) : intOf (low 4 (BitVec.ofNat 64 n)) = n := by
  rw [intOf, low_int]
  have e : (BitVec.ofNat 64 n).setWidth 32 = BitVec.ofNat 32 n := by
    apply BitVec.eq_of_toNat_eq
    simp only [BitVec.toNat_setWidth, BitVec.toNat_ofNat]
    omega
  rw [e, BitVec.toInt_ofNat']
  rw [Int.bmod_def]
  omega

theorem evals_lits (M : Machine A S X) (s : S) : ∀ ns : List Nat,
    evals M 4 (ns.map fun n => Expr.lit 4 (BitVec.ofNat 64 n)) s
      = .ok (ns.map fun n => low 4 (BitVec.ofNat 64 n), s)
  | [] => rfl
  | n :: ns => by rw [List.map_cons, evals]; simp only [Expr.eval]; rw [evals_lits M s ns]; rfl

theorem prod_le_mem : ∀ (ns : List Nat), (∀ n ∈ ns, 1 ≤ n) → 1 ≤ prodN ns ∧ ∀ n ∈ ns, n ≤ prodN ns
  | [], _ => ⟨by simp [prodN], by simp⟩
  | n :: ns, h => by
    have ih := prod_le_mem ns (fun m hm => h m (List.mem_cons_of_mem _ hm))
    have hn := h n (by simp)
    refine ⟨?_, fun m hm => ?_⟩
    · rw [prodN]; exact Nat.mul_pos hn ih.1
    · rw [prodN]
      rcases List.mem_cons.mp hm with rfl | hm
      · exact Nat.le_mul_of_pos_right _ ih.1
      · exact Nat.le_trans (ih.2 m hm) (Nat.le_mul_of_pos_left _ hn)

theorem ints_of (ns : List Nat) (h : ∀ n ∈ ns, n < 2 ^ 31) :
    (ns.map fun n => low 4 (BitVec.ofNat 64 n)).map intOf = ns.map Int.ofNat := by
  induction ns with
  | nil => rfl
  | cons n ns ih =>
    rw [List.map_cons, List.map_cons, ih (fun m hm => h m (List.mem_cons_of_mem _ hm)),
      ofNat_int n (h n (by simp))]
    rfl

theorem lengths_of (ns : List Nat) (i : Inits A) (h : Shaped ns i) (hp : prodN ns < 2 ^ 31) :
    Arr.Lengths (ns.map Int.ofNat) := by
  refine ⟨?_, fun l hl => ?_, by rw [prod_cast]; omega⟩
  · cases h; simp
  · obtain ⟨n, hn, rfl⟩ := List.mem_map.mp hl
    have := shaped_pos ns i h n hn
    simp only [Int.ofNat_eq_natCast]; omega

theorem accept_none (n : New A) (i : Inits A) (ns : List Nat) (hi : n.init = some i) (hs : Shaped ns i)
    (h32 : ns.length ≤ 32) (hn : n.lengths = List.replicate ns.length none) :
    n.accept = some ⟨n.size, ns.map fun m => .lit 4 (BitVec.ofNat 64 m), some i⟩ := by
  have hc := (check_shape i).mpr ⟨ns, hs, h32⟩
  rw [New.accept, hn, hi, fill_none i ns hs ns.length 0 (by omega)]
  simp [hc]

/-- **C108 (partial).**  `new T[,…] { … }` with a shape and as many dimensions is accepted.  The expressions are
evaluated in the order of the places, row by row — where no index is left out — and if one fails, so does the
creation.  Otherwise there is a new array on the stack with the lengths of the shape, and reading it at a
valid index gives the value of the expression that is written there.  Missing: the memory must have room for all
elements (`new_array` computes it from the first length alone, `several_refuted`), constants have the size of
the elements (`narrow_refuted`), and an index must not be one of 10, 18, 26 (`Arr.element_partial`). -/
theorem made_partial (M : Machine A S X) (optimize : Bool) (n : New A) (i : Inits A) (ns : List Nat)
    (hi : n.init = some i) (hs : Shaped ns i) (h32 : ns.length ≤ 32)
    (hn : n.lengths = List.replicate ns.length none) (hw : n.size = 1 ∨ n.size = 2 ∨ n.size = 4 ∨ n.size = 8)
    (hf : ConstantsOf n.size i) (hp : Arr.product (ns.map Int.ofNat) < 2 ^ 31)
    (hroom : Arr.product (ns.map Int.ofNat) ≤ (Arr.bytesFor n.size (ns.headD 0) / n.size : Nat))
    (hdim : ns.length ≤ 8 ∨ ns.length % 8 ≠ 2) :
    ∃ a es, n.accept = some a ∧ (es.length : Int) = Arr.product (ns.map Int.ofNat) ∧
      (∀ ks : List Nat, Arr.Valid (ns.map Int.ofNat) (ks.map Int.ofNat) →
        es[(Arr.rowMajor (ns.map Int.ofNat) (ks.map Int.ofNat)).toNat]? = (Elem.init i).at ks ∧
          ((Elem.init i).at ks).isSome) ∧
      ∀ (s : S) (stk : List Cell), match evals M n.size es s with
      | .error (x, s') => run M (a.code optimize true) ⟨s, stk, none⟩ = .raised x s'
      | .ok (vs, s') => ∃ o, run M (a.code optimize true) ⟨s, stk, none⟩ = .ok ⟨s', .ref :: stk, some o⟩ ∧
          o.arr.dimension = ns.length ∧ (∀ k (hk : k < ns.length), Arr.lengthOf o.arr k = some (ns[k] : Int)) ∧
          ∀ ks : List Nat, Arr.Valid (ns.map Int.ofNat) (ks.map Int.ofNat) →
            ∃ (j : Nat) (v : BitVec 64), Arr.checked o.arr (ks.map Int.ofNat).reverse = some (.element j) ∧
              o.slots[j]? = some v ∧ vs[j]? = some v ∧ es[j]? = (Elem.init i).at ks := by
  have hfe := fits_each i ns hs n.size hf
  have hpn : prodN ns < 2 ^ 31 := by rw [prod_cast] at hp; omega
  have hcell : Cell₁ ns (.init i) := by
    cases hs with
    | mk m ms _ h1 h2 => exact .init _ _ _ (.mk _ _ _ h1 h2)
  have hcell' := each_elem (.init i) ns hcell
  have hlens := lengths_of ns i hs hpn
  have hsmall : ∀ m ∈ ns, m < 2 ^ 31 := fun m hm =>
    Nat.lt_of_le_of_lt ((prod_le_mem ns (shaped_pos ns i hs)).2 m hm) hpn
  refine ⟨_, i.each, accept_none n i ns hi hs h32 hn, by rw [prod_cast]; exact congrArg Int.ofNat hcell'.1,
    fun ks hk => ?_, fun s stk => ?_⟩
  · have hin := valid_in ns ks hk
    have hat := hcell'.2 ks hin
    rw [place_cast ns ks hin]
    refine ⟨hat, ?_⟩
    have hlt := placeN_lt ns ks hin
    rw [← hcell'.1] at hlt
    rw [← hat, List.getElem?_eq_getElem hlt]; rfl
  · obtain ⟨a, ha, hdimn, htot, hlen⟩ := Arr.Props.lengths_partial n.size _ hlens
    have ha2 := Arr.Props.newArray_eq n.size _ hlens
    have hbytes : a.bytes = Arr.bytesFor n.size (ns.headD 0) := by
      rw [ha, Option.some.injEq] at ha2
      rw [ha2]
      cases ns <;> rfl
    have hl : Fits 4 (ns.map fun m => Expr.lit (A := A) 4 (BitVec.ofNat 64 m)) := by
      intro w v h
      obtain ⟨m, _, e⟩ := List.mem_map.mp h
      rw [Expr.lit.injEq] at e
      exact e.1.symm
    have hlen' : i.each.length = prodN ns := hcell'.1
    have := create_run (M := M) optimize n.size hw (ns.map fun m => .lit 4 (BitVec.ofNat 64 m)) i hl hfe s s stk _ a
      (evals_lits M s ns) (by rw [ints_of ns hsmall]; exact ha)
      (by rw [hbytes, hlen']; rw [prod_cast] at hroom; omega)
    cases hv : evals M n.size i.each s with
    | error p => rw [hv] at this; exact this
    | ok p =>
      obtain ⟨vs, s'⟩ := p
      rw [hv] at this
      simp only at this ⊢
      refine ⟨_, this, by rw [hdimn, List.length_map], fun k hk => ?_, fun ks hk => ?_⟩
      · have := hlen k (by rw [List.length_map]; exact hk)
        rw [this]; simp
      · have hin := valid_in ns ks hk
        have hlt := placeN_lt ns ks hin
        have hvl := evals_length hv
        have hel := Arr.Props.element_partial n.size _ _ a hlens ha hk (by rw [List.length_map]; exact hdim)
        have hj : placeN ns ks < vs.length := by omega
        refine ⟨placeN ns ks, vs[placeN ns ks], ?_, ?_, ?_, hcell'.2 ks hin⟩
        · rw [hel.1, place_cast ns ks hin]
        · rw [List.getElem?_append_left hj, List.getElem?_eq_getElem hj]
        · rw [List.getElem?_eq_getElem hj]

/-- **C108.**  With one dimension there is always room. -/
theorem room_one (size n : Nat) (hw : size = 1 ∨ size = 2 ∨ size = 4 ∨ size = 8) (hn : n < 2 ^ 31) :
    Arr.product ([n].map Int.ofNat) ≤ (Arr.bytesFor size ([n].headD 0 : Nat) / size : Nat) := by
  have := slots_room size hw n hn
  have e : Arr.product ([n].map Int.ofNat) = (n : Int) := by rw [prod_cast, prodN, prodN, Nat.mul_one]
  rw [e]
  exact Int.ofNat_le.mpr this

/-- **C108 (partial).**  `new T[e] { … }`: the length is evaluated first; if there are not more elements than that,
the array has this length, the elements come first and the rest is 0. -/
theorem given_partial (M : Machine A S X) (optimize : Bool) (size : Nat) (e : Expr A) (i : Inits A) (m : Nat)
    (hs : Shaped [m] i) (hw : size = 1 ∨ size = 2 ∨ size = 4 ∨ size = 8) (hf : ConstantsOf size i)
    (he : Fits 4 [e]) (s s1 s2 : S) (stk : List Cell) (len : BitVec 64) (vs : List (BitVec 64)) (L : Nat)
    (h1 : e.eval M 4 s = .ok (len, s1)) (hL : (len.setWidth 32).toInt = L) (hL0 : 1 ≤ L) (hm : m ≤ L)
    (h2 : evals M size i.each s1 = .ok (vs, s2)) :
    ∃ a o, New.accept ⟨size, [some e], some i⟩ = some a ∧
      run M (a.code optimize true) ⟨s, stk, none⟩ = .ok ⟨s2, .ref :: stk, some o⟩ ∧
      Arr.lengthOf o.arr 0 = some (L : Int) ∧ vs.length = m ∧
      ∀ j < L, Arr.checked o.arr [(j : Int)] = some (.element j) ∧ o.slots[j]? = some (vs.getD j 0) := by
  have hL31 : L < 2 ^ 31 := by
    have := BitVec.toInt_lt (x := len.setWidth 32)
    rw [hL] at this
    simp at this
    omega
  have hc := (check_shape i).mpr ⟨[m], hs, by simp⟩
  have hcell : Cell₁ [m] (.init i) := .init _ _ _ hs
  have hlen := (each_elem (.init i) [m] hcell).1
  rw [prodN, prodN, Nat.mul_one] at hlen
  have hlen' : i.each.length = m := hlen
  have hroom := slots_room size hw L hL31
  have hev : evals M 4 [e] s = .ok ([len], s1) := by rw [evals, h1]; rfl
  have hr := create_run (M := M) optimize size hw [e] i he (fits_each i [m] hs size hf) s s1 stk [len]
    ⟨1, L, [], Arr.bytesFor size L⟩ hev (by
      rw [List.map_cons, List.map_nil]
      have : intOf len = (L : Int) := hL
      rw [this]; rfl) (by rw [hlen']; exact Nat.le_trans hm hroom)
  rw [h2] at hr
  have hvl := evals_length h2
  refine ⟨⟨size, [e], some i⟩, _, by simp [New.accept, fill, hc], hr, rfl, by omega, fun j hj => ⟨?_, ?_⟩⟩
  · simp only [Arr.checked, Arr.elementIndex, Nat.reduceLeDiff, if_true, if_false]
    simp only [Option.bind_eq_bind, Option.bind_some]
    rw [if_neg (by omega)]; rfl
  · simp only
    by_cases hjv : j < vs.length
    · rw [List.getElem?_append_left hjv, List.getElem?_eq_getElem hjv]
      simp [hjv]
    · rw [List.getElem?_append_right (by omega), List.getElem?_replicate, if_pos (by omega)]
      simp [hjv]

/-- **C108 (refuted).**  Whatever the elements are: as soon as there are more than the memory of the array has room for,
the next one is written behind it — a length that is given is not compared with the initialiser. -/
theorem given_refuted (M : Machine A S X) (optimize : Bool) (size : Nat) (e : Expr A) (i : Inits A) (m : Nat)
    (hs : Shaped [m] i) (hw : size = 1 ∨ size = 2 ∨ size = 4 ∨ size = 8) (hf : ConstantsOf size i)
    (he : Fits 4 [e]) (s s1 s2 : S) (stk : List Cell) (len : BitVec 64) (vs : List (BitVec 64)) (L : Int)
    (h1 : e.eval M 4 s = .ok (len, s1)) (hL : (len.setWidth 32).toInt = L)
    (hm : Arr.bytesFor size L / size < m) (h2 : evals M size i.each s1 = .ok (vs, s2)) :
    ∃ a, New.accept ⟨size, [some e], some i⟩ = some a ∧ run M (a.code optimize true) ⟨s, stk, none⟩ = .wild := by
  have hc := (check_shape i).mpr ⟨[m], hs, by simp⟩
  have hcell : Cell₁ [m] (.init i) := .init _ _ _ hs
  have hlen := (each_elem (.init i) [m] hcell).1
  rw [prodN, prodN, Nat.mul_one] at hlen
  have hlen' : i.each.length = m := hlen
  have hev : evals M 4 [e] s = .ok ([len], s1) := by rw [evals, h1]; rfl
  refine ⟨⟨size, [e], some i⟩, by simp [New.accept, fill, hc], ?_⟩
  exact create_over optimize size hw [e] i he (fits_each i [m] hs size hf) s s1 s2 stk [len] vs
    ⟨1, L, [], Arr.bytesFor size L⟩ hev (by
      rw [List.map_cons, List.map_nil]
      have : intOf len = L := hL
      rw [this]; rfl) h2 (by rw [hlen']; exact hm)

/-- **C108 (refuted).**  With several dimensions the elements go outside of the memory of the array, unless the room
for the first length is enough for all of them. -/
theorem several_refuted (M : Machine A S X) (optimize : Bool) (n : New A) (i : Inits A) (ns : List Nat)
    (hi : n.init = some i) (hs : Shaped ns i) (h32 : ns.length ≤ 32)
    (hn : n.lengths = List.replicate ns.length none) (hw : n.size = 1 ∨ n.size = 2 ∨ n.size = 4 ∨ n.size = 8)
    (hf : ConstantsOf n.size i) (hp : Arr.product (ns.map Int.ofNat) < 2 ^ 31)
    (hroom : (Arr.bytesFor n.size (ns.headD 0) / n.size : Nat) < Arr.product (ns.map Int.ofNat)) :
    ∃ a, n.accept = some a ∧ ∀ (s s' : S) (stk : List Cell) (vs : List (BitVec 64)),
      evals M n.size i.each s = .ok (vs, s') → run M (a.code optimize true) ⟨s, stk, none⟩ = .wild := by
  have hfe := fits_each i ns hs n.size hf
  have hpn : prodN ns < 2 ^ 31 := by rw [prod_cast] at hp; omega
  have hcell : Cell₁ ns (.init i) := by
    cases hs with
    | mk m ms _ h1 h2 => exact .init _ _ _ (.mk _ _ _ h1 h2)
  have hcell' := each_elem (.init i) ns hcell
  have hlens := lengths_of ns i hs hpn
  have hsmall : ∀ m ∈ ns, m < 2 ^ 31 := fun m hm =>
    Nat.lt_of_le_of_lt ((prod_le_mem ns (shaped_pos ns i hs)).2 m hm) hpn
  refine ⟨_, accept_none n i ns hi hs h32 hn, fun s s' stk vs hv => ?_⟩
  obtain ⟨a, ha, -⟩ := Arr.Props.lengths_partial n.size _ hlens
  have ha2 := Arr.Props.newArray_eq n.size _ hlens
  have hbytes : a.bytes = Arr.bytesFor n.size (ns.headD 0) := by
    rw [ha, Option.some.injEq] at ha2
    rw [ha2]
    cases ns <;> rfl
  have hl : Fits 4 (ns.map fun m => Expr.lit (A := A) 4 (BitVec.ofNat 64 m)) := by
    intro w v h
    obtain ⟨m, _, e⟩ := List.mem_map.mp h
    rw [Expr.lit.injEq] at e
    exact e.1.symm
  have hlen' : i.each.length = prodN ns := hcell'.1
  exact create_over (M := M) optimize n.size hw (ns.map fun m => .lit 4 (BitVec.ofNat 64 m)) i hl hfe s s s' stk _ vs a
    (evals_lits M s ns) (by rw [ints_of ns hsmall]; exact ha) hv
    (by rw [hbytes, hlen']; rw [prod_cast] at hroom; omega)

/-- **C108 (partial).**  As a statement a creation has the effects of its lengths and elements, in this order; with
optimisation the stack is as before (without: `statement_refuted`). -/
theorem statement_partial (M : Machine A S X) (optimize : Bool) (a : Accepted A) (i : Inits A)
    (hi : a.init = some i) (s : S) (stk : List Cell) :
    match evals M a.size (a.lengths ++ i.each) s with
    | .error (x, s') => run M (a.code optimize false) ⟨s, stk, none⟩ = .raised x s'
    | .ok (_, s') => ∃ us : List Cell, run M (a.code optimize false) ⟨s, stk, none⟩ = .ok ⟨s', us ++ stk, none⟩ ∧
        us.length = if optimize then 0 else lits (a.lengths ++ i.each) := by
  have hc : a.code optimize false = (a.lengths ++ i.each).flatMap (Expr.code optimize false) := by
    simp [Accepted.code, hi]
  rw [hc]
  have := unused_run (M := M) optimize (a.lengths ++ i.each) a.size s stk none
  cases h : evals M a.size (a.lengths ++ i.each) s with
  | error p => rw [h] at this; exact this
  | ok p => rw [h] at this; exact this

/-! ## Cases -/

/-- A machine that notes the actions; action 99 fails.  Units are full of ones. -/
def noting : Machine Nat (List Nat) Nat where
  act a s := if a = 99 then .error (a, s) else .ok (BitVec.ofNat 64 a, s ++ [a])
  junk _ := ~~~ 0

/-- Elements of braces. -/
def braces (e : Elem Nat) : List (Elem Nat) → Inits Nat
  | [] => .one e
  | e' :: es => .more e (braces e' es)

/-- A constant. -/
def int (v : Nat) : Elem Nat := .expr (.lit 4 (BitVec.ofNat 64 v))

/-- `new int[,] { { 5, f(8) } }` -/
def small : New Nat :=
  ⟨4, [none, none], some (braces (.init (braces (int 5) [.expr (.act 8)])) [])⟩

example : Shaped [1, 2] (braces (.init (braces (int 5) [.expr (.act 8)])) []) :=
  .mk 1 _ _ rfl (.one _ _ (.init _ _ _ (.mk 2 _ _ rfl (.more _ _ _ (.expr _) (.one _ _ (.expr _))))))

example : small.accept.map (fun a => run noting (a.code false true) ⟨[], [.val 1], none⟩)
    = some (.ok ⟨[8], [.ref, .val 1], some ⟨⟨2, 2, [2, 2], 8⟩, [5, 8]⟩⟩) := by decide +kernel

/-- `new int[5] { 1, f(2), 3 }` -/
example : (New.accept ⟨4, [some (.lit 4 5)], some (braces (int 1) [.expr (.act 2), int 3])⟩).map
    (fun a => run noting (a.code true true) ⟨[], [], none⟩)
    = some (.ok ⟨[2], [.ref], some ⟨⟨1, 5, [], 24⟩, [1, 2, 3, 0, 0, 0]⟩⟩) := by decide +kernel

/-- An element that fails. -/
example : (New.accept ⟨4, [none], some (braces (.expr (.act 2)) [.expr (.act 99), .expr (.act 3)])⟩).map
    (fun a => run noting (a.code true true) ⟨[], [], none⟩) = some (.raised 99 [2]) := by decide +kernel

/-- `{ { 1, 2 }, { 3 } }` and `{ 1, { 2 } }` are rejected. -/
example : (braces (.init (braces (int 1) [int 2])) [.init (braces (int 3) [])]).check matches .error .unaligned := by
  decide
example : (braces (int 1) [.init (braces (int 2) [])]).check matches .error .mixture := by decide

/-- **C108 (refuted).**  `new int[2] { 1, 2, 3 }` writes behind the array. -/
theorem length_refuted : (New.accept ⟨4, [some (.lit 4 2)], some (braces (int 1) [int 2, int 3])⟩).map
    (fun a => run noting (a.code true true) ⟨[], [], none⟩) = some .wild := by decide +kernel

/-- **C108 (refuted).**  `new int[] { { 1, 2 }, { 3, 4 } }` is accepted: an array of 2 with 4 elements written. -/
theorem depth_refuted : (New.accept ⟨4, [none],
      some (braces (.init (braces (int 1) [int 2])) [.init (braces (int 3) [int 4])])⟩).map
    (fun a => run noting (a.code true true) ⟨[], [], none⟩) = some .wild := by decide +kernel

/-- **C108 (refuted).**  `new int[,] { { 1, 2, 3 }, { 4, 5, 6 } }` writes behind the memory of the array. -/
theorem rows_refuted : (New.accept ⟨4, [none, none],
      some (braces (.init (braces (int 1) [int 2, int 3])) [.init (braces (int 4) [int 5, int 6])])⟩).map
    (fun a => run noting (a.code true true) ⟨[], [], none⟩) = some .wild := by decide +kernel

/-- **C108 (refuted).**  `new long[] { 1 }`: the constant is an `int`, the upper half is what was on the stack. -/
theorem narrow_refuted : (New.accept ⟨8, [none], some (braces (int 1) [])⟩).map
    (fun a => run noting (a.code true true) ⟨[], [], none⟩)
    = some (.ok ⟨[], [.ref], some ⟨⟨1, 1, [], 8⟩, [0xffffffff00000001]⟩⟩) := by decide +kernel

/-- **C108 (refuted).**  As a statement without optimisation `new int[] { 7 };` leaves two units on the stack. -/
theorem statement_refuted : (New.accept ⟨4, [none], some (braces (int 7) [])⟩).map
    (fun a => run noting (a.code false false) ⟨[], [], none⟩)
    = some (.ok ⟨[], [.val 0xffffffff00000007, .val 0xffffffff00000001], none⟩) := by decide +kernel

/-- **C108 (refuted).**  An array of structures of 16 bytes cannot be initialised: the command is missing. -/
theorem struct_refuted : (New.accept ⟨16, [none], some (braces (.expr (.act 3)) [])⟩).map
    (fun a => run noting (a.code true true) ⟨[], [], none⟩) = some .wild := by decide +kernel

end Verif.Init.Props
