import Verif.Model.Xil
import Verif.Props.Bits

namespace Verif.Xil

open Verif.Bits

@[simp] theorem lo_mkByte (l h : Nib) : lo (mkByte l h) = l := by
  have : ∀ l h : Nib, lo (mkByte l h) = l := by decide +kernel
  exact this l h

@[simp] theorem hi_mkByte (l h : Nib) : hi (mkByte l h) = h := by
  have : ∀ l h : Nib, hi (mkByte l h) = h := by decide +kernel
  exact this l h

theorem mkByte_lo_hi (b : Byte) : mkByte (lo b) (hi b) = b := by
  have : ∀ b : Byte, mkByte (lo b) (hi b) = b := by decide +kernel
  exact this b

@[simp] theorem rd16_le16 (x : BitVec 16) (t : List Byte) : rd16 (le16 x ++ t) = some x := by
  simp only [le16, rd16, List.cons_append, List.nil_append]
  congr 1
  apply BitVec.eq_of_getLsbD_eq
  intro i hi
  simp only [BitVec.getLsbD_append, BitVec.getLsbD_extractLsb']
  by_cases h1 : i < 8
  · simp [h1]
  · have e : 8 + (i - 8) = i := by omega
    have h2 : i - 8 < 8 := by omega
    simp [h1, h2, e]

@[simp] theorem rd32_le32 (x : BitVec 32) (t : List Byte) : rd32 (le32 x ++ t) = some x := by
  simp only [le32, rd32, List.cons_append, List.nil_append]
  congr 1
  apply BitVec.eq_of_getLsbD_eq
  intro i hi
  simp only [BitVec.getLsbD_append, BitVec.getLsbD_extractLsb']
  by_cases h1 : i < 8
  · simp [h1]
  · by_cases h2 : i - 8 < 8
    · have e : 8 + (i - 8) = i := by omega
      simp [h1, h2, e]
    · by_cases h3 : i - 8 - 8 < 8
      · have e : 16 + (i - 8 - 8) = i := by omega
        simp [h1, h2, h3, e]
      · have e : 24 + (i - 8 - 8 - 8) = i := by omega
        have h4 : i - 8 - 8 - 8 < 8 := by omega
        simp [h1, h2, h3, h4, e]

@[simp] theorem le16_length (x : BitVec 16) : (le16 x).length = 2 := rfl
@[simp] theorem le32_length (x : BitVec 32) : (le32 x).length = 4 := rfl

@[simp] theorem varOfCode_code (st : VarStorage) : VarStorage.ofCode st.code = some st := by
  cases st <;> rfl
@[simp] theorem refOfCode_code (st : RefStorage) : RefStorage.ofCode st.code = some st := by
  cases st <;> rfl
@[simp] theorem varOfCode_refCode (st : RefStorage) : VarStorage.ofCode st.code = none := by
  cases st <;> rfl

/-- The size is found in the bytes it covers, so what follows an instruction does not matter. -/
theorem sizeOf_take (img : List Byte) (n : Nat) (h : sizeOf img = some n) (hpos : 0 < n)
    (rest : List Byte) : sizeOf (img.take n ++ rest) = some n := by
  cases img with
  | nil => simp [sizeOf] at h
  | cons b t =>
    obtain ⟨m, rfl⟩ : ∃ m, n = m + 1 := ⟨n - 1, by omega⟩
    rw [List.take_succ_cons, List.cons_append]
    have key : ∀ f : Byte → Nat, t.head?.map (fun c => 2 + f c) = some (m + 1) →
        (t.take m ++ rest).head?.map (fun c => 2 + f c) = some (m + 1) := by
      intro f hf
      cases t with
      | nil => simp at hf
      | cons c t' =>
        simp only [List.head?_cons, Option.map_some, Option.some.injEq] at hf
        obtain ⟨k, rfl⟩ : ∃ k, m = k + 1 := ⟨m - 1, by omega⟩
        simp only [List.take_succ_cons, List.cons_append, List.head?_cons, Option.map_some,
          Option.some.injEq]
        omega
    rw [sizeOf] at h ⊢
    split at h <;> first | exact h | exact key _ h | skip
    split at h <;> first | exact h | exact key _ h

theorem written_spec {img w : List Byte} (h : written img = some w) :
    ∃ n, sizeOf img = some n ∧ n ≤ img.length ∧ w = img.take n := by
  rw [written] at h
  split at h
  · cases h
  · rename_i n hn
    split at h
    · rename_i hle
      cases h
      exact ⟨n, hn, hle, rfl⟩
    · cases h

end Verif.Xil
