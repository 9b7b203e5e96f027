import Verif.Proof.Pack
import Verif.Props.Fields

/-!
# C119 — a parameter that stands for any number of arguments refers to the first of them

`bytesAt` of a place: what a read from a pointer to it finds.  `frame`: the stack of a call with these arguments.
-/

namespace Verif.Pack

open Verif.Layout (m16 Storage)
open Verif.Fields (Bytes unitSize World Fits Sorts Item varSize getField tupleSet roundUp)

/-! ## Ordinary arguments -/

/-- Each argument is found where it was put, also each of the packed ones, whatever the other parameters are. -/
theorem arguments_found (static : Bool) (ps : List Param) (hs : (allUnits static ps).sum < 65536) {below : Bytes} {b : Nat}
    (hb : below.length = 8 * b) (args : List Bytes) (ha : Fit (allUnits static ps) args) (stub above : Bytes) (i : Nat) (v : Bytes)
    (hi : args[i]? = some v) :
    ∃ p, argPlace (frame below args stub above).2 (layout static ps) i = some p ∧
      ∃ rest, bytesAt (frame below args stub above).1 p = some (v ++ rest) := by
  obtain ⟨h1, h2, h3, -⟩ := layout_inv static ps hs
  have hl : i < args.length := (List.getElem?_eq_some_iff.1 hi).1
  have hlu : args.length = (allUnits static ps).length := by simpa using congrArg List.length ha
  have hle : ((allUnits static ps).take i).sum ≤ (allUnits static ps).sum := by
    conv => rhs; rw [← List.take_append_drop i (allUnits static ps), List.sum_append]
    omega
  have hoff : offsetOf (layout static ps) i = some ((allUnits static ps).sum - ((allUnits static ps).take i).sum) := by
    unfold offsetOf
    rw [h2 i (by omega), h3]
    simp only [m16]
    congr 1
    by_cases hz : ((allUnits static ps).sum - ((allUnits static ps).take i).sum) = 0
    · have : (allUnits static ps).sum + 65536 - ((allUnits static ps).take i).sum = 65536 := by omega
      rw [this, hz]
    · have : (allUnits static ps).sum + 65536 - ((allUnits static ps).take i).sum
          = ((allUnits static ps).sum - ((allUnits static ps).take i).sum) + 65536 := by omega
      rw [this, Nat.add_mod_right, Nat.mod_eq_of_lt (by omega)]
  have hfl := fit_length ha
  refine ⟨((b + ((allUnits static ps).take i).sum : Nat) : Int), ?_, ?_⟩
  · unfold argPlace
    rw [hoff]
    simp only [Option.map_some, frame, hfl, hb, Option.some.injEq, stubUnits]
    omega
  · have hsp : args.flatten = (args.take i).flatten ++ (v ++ (args.drop (i + 1)).flatten) := by
      conv => lhs; rw [← List.take_append_drop i args, List.flatten_append]
      rw [List.drop_eq_getElem_cons hl, List.flatten_cons]
      rw [(List.getElem?_eq_some_iff.1 hi).2]
    refine ⟨(args.drop (i + 1)).flatten ++ stub ++ above, ?_⟩
    have := bytesAt_split (rest := v ++ ((args.drop (i + 1)).flatten ++ stub ++ above)) hb (fit_length (fit_take ha i)) rfl
    rw [← this]
    simp [frame, hsp]

/-! ## The pointer to the packed arguments -/

/-- The pointer that `T ... items` gives is always the second unit of the arguments. -/
theorem pointer_value (static : Bool) (ps : List Param) (hs : (allUnits static ps).sum + 1 < 65536) {below : Bytes} {b : Nat}
    (hb : below.length = 8 * b) (args : List Bytes) (ha : Fit (allUnits static ps) args) (stub above : Bytes) :
    packPlace (frame below args stub above).2 (layout static ps) = (b + 1 : Nat) := by
  obtain ⟨-, -, h3, h4⟩ := layout_inv static ps (by omega)
  have hfl := fit_length ha
  have : extendsOffset (layout static ps) = (allUnits static ps).sum + 1 := by
    unfold extendsOffset
    rw [h3, h4, if_neg (by omega)]
    simp only [m16]
    have : (allUnits static ps).sum + 65536 - 65535 = (allUnits static ps).sum + 1 := by omega
    rw [this, Nat.mod_eq_of_lt hs]
  unfold packPlace
  rw [this]
  simp only [frame, hfl, hb, stubUnits]
  omega

/-- The pointer is the place of the first packed argument exactly when one unit of arguments is in front of it, like `this`.
The property asks for the equation always. -/
theorem pointer_iff (static : Bool) (front : List Param) (sizes : List Nat) (back : List Param) (size : Nat)
    (hs : (allUnits static (front ++ .many (size :: sizes) :: back)).sum + 1 < 65536) {below : Bytes} {b : Nat}
    (hb : below.length = 8 * b) (args : List Bytes) (ha : Fit (allUnits static (front ++ .many (size :: sizes) :: back)) args)
    (stub above : Bytes) :
    argPlace (frame below args stub above).2 (layout static (front ++ .many (size :: sizes) :: back)) (allUnits static front).length
        = some (packPlace (frame below args stub above).2 (layout static (front ++ .many (size :: sizes) :: back)))
      ↔ (allUnits static front).sum = 1 := by
  have hp := pointer_value static _ hs hb args ha stub above
  obtain ⟨h1, h2, h3, -⟩ := layout_inv static _ (Nat.lt_of_succ_lt hs)
  have hfl := fit_length ha
  have hsplit : allUnits static (front ++ .many (size :: sizes) :: back)
      = allUnits static front ++ (unitSize size :: (sizes.map unitSize ++ back.flatMap unitsOf)) := by
    simp [allUnits, unitsOf]
  have hsum : (allUnits static front).sum ≤ (allUnits static (front ++ .many (size :: sizes) :: back)).sum := by
    rw [hsplit, List.sum_append]; omega
  have hget := h2 (allUnits static front).length (by rw [hsplit]; simp)
  have htake : (allUnits static (front ++ .many (size :: sizes) :: back)).take (allUnits static front).length = allUnits static front := by
    rw [hsplit, List.take_left']; rfl
  rw [htake] at hget
  rw [hp]
  unfold argPlace offsetOf
  rw [hget, h3]
  simp only [Option.map_some, Option.some.injEq, frame, hfl, hb, stubUnits, m16]
  generalize (allUnits static (front ++ .many (size :: sizes) :: back)).sum = T at *
  generalize (allUnits static front).sum = F at *
  have hmod : (T + 65536 - F) % 65536 = T - F := by
    have : T + 65536 - F = (T - F) + 65536 := by omega
    rw [this, Nat.add_mod_right, Nat.mod_eq_of_lt (by omega)]
  rw [hmod]
  omega

/-- An instance method whose first parameter is `T ... items`: the pointer finds the values of all packed arguments, one after the
other.  Partial: see `static_refuted` and `second_refuted`. -/
theorem packed_partial (sizes : List Nat) (back : List Param) (hs : (allUnits false (.many sizes :: back)).sum + 1 < 65536)
    {below : Bytes} {b : Nat} (hb : below.length = 8 * b) (self : Bytes) (words others : List Bytes)
    (ha : Fit (allUnits false (.many sizes :: back)) (self :: words ++ others)) (stub above : Bytes) :
    bytesAt (frame below (self :: words ++ others) stub above).1
        (packPlace (frame below (self :: words ++ others) stub above).2 (layout false (.many sizes :: back)))
      = some (words.flatten ++ (others.flatten ++ stub ++ above)) := by
  rw [pointer_value false _ hs hb _ ha]
  have hself : self.length = 8 * 1 := by
    have := congrArg List.head? ha
    simpa [allUnits] using this
  have := bytesAt_split (rest := words.flatten ++ (others.flatten ++ stub ++ above)) hb hself rfl
  rw [← this]
  simp [frame]

/-- `new Tuple<…>(…)`: the constructor gives the pointer to its packed arguments to the runtime, which sets the items
(`core_lib/System/System.cs:144-151`): afterwards each item of the tuple holds its argument. -/
theorem tuple_partial {W : World} {sort : List Item → List Item} (hso : Sorts sort) {n d : Nat} {sb : Bool} {base : Option Nat}
    {fields : List Nat} (hk : W.kind d = .obj sb base fields) (hf : Fits W n d) {m : Bytes} {z : Nat} {st : Storage}
    (hz : Fields.sizeOf W sort n d = some (z, st)) (hm : roundUp z ≤ m.length) (sizes : List Nat) (hlen : sizes.length = fields.length)
    (hsz : ∀ (i t s : Nat) (sto : Storage), fields[i]? = some t → varSize W (Fields.sizeOf W sort n) t = some (s, sto) → sizes[i]? = some s)
    (hs : (allUnits false [.many sizes]).sum + 1 < 65536) {below : Bytes} {b : Nat} (hb : below.length = 8 * b)
    (self : Bytes) (words : List Bytes) (ha : Fit (allUnits false [.many sizes]) (self :: words)) (stub above : Bytes) :
    ∃ arguments m1,
      bytesAt (frame below (self :: words) stub above).1 (packPlace (frame below (self :: words) stub above).2 (layout false [.many sizes]))
        = some arguments ∧
      tupleSet W sort n m d arguments = some m1 ∧
      ∀ (i t : Nat) (v : Bytes), fields[i]? = some t → words[i]? = some v →
        ∃ s sto, varSize W (Fields.sizeOf W sort n) t = some (s, sto) ∧ getField W sort n m1 d [i] = some (v.take s) := by
  have hp := packed_partial sizes [] hs hb self words [] (by simpa using ha) stub above
  simp only [List.append_nil, List.flatten_nil, List.nil_append] at hp
  have hwl : words.map List.length = sizes.map (fun s => 8 * unitSize s) := by
    have := congrArg List.tail ha
    simpa [allUnits, unitsOf, Function.comp_def] using this
  obtain ⟨m1, h1, -, h2⟩ := Verif.Fields.tuple_items_partial hso hk hf hz hm words (stub ++ above)
    (by have := congrArg List.length hwl; simp at this; omega)
    (by
      intro i t v s sto hi hv hvs
      have hsi := hsz i t s sto hi hvs
      have := congrArg (fun l => l[i]?) hwl
      simp only [List.getElem?_map, hv, hsi, Option.map_some, Option.some.injEq] at this
      rw [this]
      simp only [unitSize, roundUp, Verif.Arr.alignf, Verif.Fields.refSize]
      omega)
  exact ⟨_, m1, hp, h1, h2⟩

/-! ## Where it fails -/

/-- A static method `F<…>(T ... items)` with one argument: whatever it is, the pointer finds the stub of the call instead. -/
theorem static_refuted (v stub above : Bytes) (hv : v.length = 8) :
    bytesAt (frame [] [v] stub above).1 (packPlace (frame [] [v] stub above).2 (layout true [.many [8]])) = some (stub ++ above) := by
  have ha : Fit (allUnits true [.many [8]]) [v] := by simp [Fit, allUnits, unitsOf, hv]; decide
  rw [pointer_value true _ (by decide) (b := 0) rfl _ ha]
  have := bytesAt_split (below := []) (rest := stub ++ above) (b := 0) (u := 1) rfl hv rfl
  rw [← this]
  simp [frame]

/-- An instance method `F(long x, T ... items)`: the pointer finds the value of `x` first. -/
theorem second_refuted (self x v stub above : Bytes) (h1 : self.length = 8) (h2 : x.length = 8) (h3 : v.length = 8) :
    bytesAt (frame [] [self, x, v] stub above).1
        (packPlace (frame [] [self, x, v] stub above).2 (layout false [.one false 8, .many [8]])) = some (x ++ (v ++ stub ++ above)) := by
  have ha : Fit (allUnits false [.one false 8, .many [8]]) [self, x, v] := by simp [Fit, allUnits, unitsOf, h1, h2, h3]; decide
  rw [pointer_value false _ (by decide) (b := 0) rfl _ ha]
  have := bytesAt_split (below := []) (rest := x ++ (v ++ stub ++ above)) (b := 0) (u := 1) rfl h1 rfl
  rw [← this]
  simp [frame]

/-! ## Non-vacuity -/

/-- Eight bytes with this value. -/
def w (k : Nat) : Bytes := List.replicate 8 k

example : ∃ p, argPlace (frame (w 9) [w 1, w 2, w 3 ++ w 4, w 5] (w 7 ++ w 7 ++ w 7) (w 8)).2
      (layout false [.one true 100, .many [12, 4]]) 2 = some p ∧
    ∃ rest, bytesAt (frame (w 9) [w 1, w 2, w 3 ++ w 4, w 5] (w 7 ++ w 7 ++ w 7) (w 8)).1 p = some ((w 3 ++ w 4) ++ rest) :=
  arguments_found false [.one true 100, .many [12, 4]] (by decide) (below := w 9) (b := 1) (by decide)
    [w 1, w 2, w 3 ++ w 4, w 5] (by unfold Fit; decide) _ _ 2 _ rfl

example : bytesAt (frame (w 9) [w 1, w 3 ++ w 4, w 5, w 6] (w 7 ++ w 7 ++ w 7) (w 8)).1
      (packPlace (frame (w 9) [w 1, w 3 ++ w 4, w 5, w 6] (w 7 ++ w 7 ++ w 7) (w 8)).2 (layout false [.many [12, 4], .one false 4]))
    = some (w 3 ++ w 4 ++ w 5 ++ (w 6 ++ (w 7 ++ w 7 ++ w 7) ++ w 8)) := by
  have := packed_partial [12, 4] [.one false 4] (by decide) (below := w 9) (b := 1) (by decide) (w 1) [w 3 ++ w 4, w 5] [w 6]
    (by unfold Fit; decide) (w 7 ++ w 7 ++ w 7) (w 8)
  simpa using this

/-- A tuple of a `byte`, a `string` and a structure of 16 bytes. -/
def tupleWorld : World where
  kind
    | 0 => .prim 1
    | 1 => .prim 8
    | 2 => .obj true none [1, 0]
    | 3 => .obj false none [0, 9, 2]
    | _ => .obj false none []

example : ∃ arguments m1,
    bytesAt (frame (w 9) [w 1, w 2, w 3, w 4 ++ w 5] (w 7 ++ w 7 ++ w 7) (w 8)).1
      (packPlace (frame (w 9) [w 1, w 2, w 3, w 4 ++ w 5] (w 7 ++ w 7 ++ w 7) (w 8)).2 (layout false [.many [1, 8, 16]])) = some arguments ∧
    tupleSet tupleWorld Fields.insSort 4 (List.replicate 48 0) 3 arguments = some m1 ∧
    getField tupleWorld Fields.insSort 4 m1 3 [1] = some (w 3) := by
  obtain ⟨a, m1, h1, h2, h3⟩ := tuple_partial Fields.insSort_sorts (W := tupleWorld) (n := 4) (d := 3) rfl ⟨32, by decide +kernel⟩
    (m := List.replicate 48 0) (z := 32) (st := .mixture) (by decide +kernel) (by decide) [1, 8, 16] rfl
    (by
      intro i t s sto hi hs
      match i with
      | 0 => cases hi; have : varSize tupleWorld (Fields.sizeOf tupleWorld Fields.insSort 4) 0 = some (1, .value) := by decide +kernel
             rw [this] at hs; cases hs; rfl
      | 1 => cases hi; have : varSize tupleWorld (Fields.sizeOf tupleWorld Fields.insSort 4) 9 = some (8, .ref) := by decide +kernel
             rw [this] at hs; cases hs; rfl
      | 2 => cases hi; have : varSize tupleWorld (Fields.sizeOf tupleWorld Fields.insSort 4) 2 = some (16, .value) := by decide +kernel
             rw [this] at hs; cases hs; rfl
      | _ + 3 => cases hi)
    (by decide) (below := w 9) (b := 1) (by decide) (w 1) [w 2, w 3, w 4 ++ w 5] (by unfold Fit; decide) (w 7 ++ w 7 ++ w 7) (w 8)
  obtain ⟨s, sto, hs, hg⟩ := h3 1 9 (w 3) rfl rfl
  have : varSize tupleWorld (Fields.sizeOf tupleWorld Fields.insSort 4) 9 = some (8, .ref) := by decide +kernel
  rw [this] at hs; cases hs
  exact ⟨a, m1, h1, h2, hg⟩

/-- The condition of `pointer_iff` holds for some methods and not for others. -/
example : (allUnits false []).sum = 1 ∧ (allUnits true [.one false 4]).sum = 1 ∧ (allUnits true []).sum = 0 ∧
    (allUnits false [.one false 12]).sum = 3 := by decide

end Verif.Pack
