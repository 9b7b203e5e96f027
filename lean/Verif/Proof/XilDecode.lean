import Verif.Spec.Xil
import Verif.Proof.Xil

/-! Every instruction the compiler builds is written and read back. -/

namespace Verif.Xil

open Verif.Bits

theorem setIdentity_small {area : List Byte} {id : BitVec 16} (h : id < 15#16) :
    setIdentity area id = (id.setWidth 4, area) := by rw [setIdentity, if_pos h]

theorem setIdentity_big {area : List Byte} {id : BitVec 16} (h : ¬ id < 15#16) :
    setIdentity area id = (15, overwrite area (le16 id)) := by rw [setIdentity, if_neg h]

theorem getIdentity_small {id : BitVec 16} (h : id < 15#16) (t : List Byte) :
    getIdentity (id.setWidth 4) t = some id := by
  have h' : id.toNat < 15 := h
  have e : (id.setWidth 4).toNat = id.toNat := by rw [BitVec.toNat_setWidth]; omega
  rw [getIdentity, if_pos (by rw [BitVec.lt_def, e]; exact h')]
  congr 1
  apply BitVec.eq_of_toNat_eq
  rw [BitVec.toNat_setWidth, e]; omega

theorem small_ne_15 {id : BitVec 16} (h : id < 15#16) : id.setWidth 4 ≠ (15 : Nib) := by
  have h' : id.toNat < 15 := h
  intro he
  have := congrArg BitVec.toNat he
  rw [BitVec.toNat_setWidth] at this
  simp at this
  omega

theorem getIdentity_big (id : BitVec 16) (t : List Byte) :
    getIdentity 15 (le16 id ++ t) = some id := by
  rw [getIdentity, if_neg (by decide), rd16_le16]

theorem take_overwrite {n : Nat} (area bs rest : List Byte) (h : bs.length = n) :
    (overwrite area bs).take n ++ rest = bs ++ rest := by
  rw [overwrite, ← h, List.take_left]

theorem area_length (g : Garbage) : g.area.length = 8 := rfl

theorem overwrite_length {area bs : List Byte} (h : bs.length ≤ area.length) :
    (overwrite area bs).length = area.length := by
  rw [overwrite, List.length_append, List.length_drop]; omega

theorem take2 (a b : Byte) (t : List Byte) (n : Nat) :
    ([a, b] ++ t).take (2 + n) = a :: b :: t.take n := by
  rw [Nat.add_comm]; rfl

theorem sizeOfType_le (t : Nib) : sizeOfType t ≤ 8 := by
  have : ∀ t : Nib, sizeOfType t ≤ 8 := by decide
  exact this t

/-- What every built instruction satisfies: it has an image, a positive size inside the image, and (when
its operand is kept) the bytes written decode to it whatever follows them. -/
def Good (g : Garbage) (i : Instr) : Prop :=
  ∃ img n, image g i = some img ∧ sizeOf img = some n ∧ 0 < n ∧ n ≤ img.length ∧
    (i.OperandKept → ∀ rest, decode (img.take n ++ rest) = some i)

theorem good2 {g : Garbage} {i : Instr} {a b : Byte} {area : List Byte} {n : Nat}
    (h1 : image g i = some ([a, b] ++ area)) (h2 : sizeOf ([a, b] ++ area) = some (2 + n))
    (h3 : n ≤ area.length)
    (h4 : i.OperandKept → ∀ rest, decode (a :: b :: (area.take n ++ rest)) = some i) : Good g i := by
  refine ⟨_, _, h1, h2, by omega, by simp only [List.length_append, List.length_cons, List.length_nil]; omega, ?_⟩
  intro hk rest
  rw [take2]
  exact h4 hk rest

theorem sizeOf_push (st d n : Nib) (t : List Byte) :
    sizeOf ([mkByte 1 st, mkByte d n] ++ t) = some (2 + pushExtra st d n) := by
  rw [List.cons_append, sizeOf, lo_mkByte, hi_mkByte, List.cons_append, List.head?_cons, Option.map_some,
    lo_mkByte, hi_mkByte]; rfl
theorem sizeOf_pop (st d n : Nib) (t : List Byte) :
    sizeOf ([mkByte 2 st, mkByte d n] ++ t) = some (2 + popExtra st d n) := by
  rw [List.cons_append, sizeOf, lo_mkByte]
  show some (2 + popExtra (hi (mkByte 2 st)) (lo (mkByte d n)) (hi (mkByte d n))) = _
  rw [hi_mkByte, hi_mkByte, lo_mkByte]
theorem sizeOf_pick (st d n : Nib) (t : List Byte) :
    sizeOf ([mkByte 3 st, mkByte d n] ++ t) = some (2 + pickExtra st n) := by
  rw [List.cons_append, sizeOf, lo_mkByte]
  show some (2 + pickExtra (hi (mkByte 3 st)) (hi (mkByte d n))) = _
  rw [hi_mkByte, hi_mkByte]
theorem decode_push (st d n : Nib) (t : List Byte) :
    decode (mkByte 1 st :: mkByte d n :: t) = decodePush st (mkByte d n) t := by
  rw [decode, lo_mkByte, hi_mkByte]; rfl
theorem decode_pop (st d n : Nib) (t : List Byte) :
    decode (mkByte 2 st :: mkByte d n :: t) = decodePop st (mkByte d n) t := by
  rw [decode, lo_mkByte, hi_mkByte]; rfl
theorem decode_pick (st d n : Nib) (t : List Byte) :
    decode (mkByte 3 st :: mkByte d n :: t) = decodePick st (mkByte d n) t := by
  rw [decode, lo_mkByte, hi_mkByte]; rfl

theorem good_push {g : Garbage} {i : Instr} {st d n : Nib} {area : List Byte} {m : Nat}
    (h1 : image g i = some ([mkByte 1 st, mkByte d n] ++ area)) (h2 : pushExtra st d n = m)
    (h3 : m ≤ area.length)
    (h4 : i.OperandKept → ∀ rest, decodePush st (mkByte d n) (area.take m ++ rest) = some i) :
    Good g i :=
  good2 h1 (by rw [sizeOf_push, h2]) h3 (fun hk rest => by rw [decode_push]; exact h4 hk rest)
theorem good_pop {g : Garbage} {i : Instr} {st d n : Nib} {area : List Byte} {m : Nat}
    (h1 : image g i = some ([mkByte 2 st, mkByte d n] ++ area)) (h2 : popExtra st d n = m)
    (h3 : m ≤ area.length)
    (h4 : i.OperandKept → ∀ rest, decodePop st (mkByte d n) (area.take m ++ rest) = some i) :
    Good g i :=
  good2 h1 (by rw [sizeOf_pop, h2]) h3 (fun hk rest => by rw [decode_pop]; exact h4 hk rest)
theorem good_pick {g : Garbage} {i : Instr} {st d n : Nib} {area : List Byte} {m : Nat}
    (h1 : image g i = some ([mkByte 3 st, mkByte d n] ++ area)) (h2 : pickExtra st n = m)
    (h3 : m ≤ area.length)
    (h4 : i.OperandKept → ∀ rest, decodePick st (mkByte d n) (area.take m ++ rest) = some i) :
    Good g i :=
  good2 h1 (by rw [sizeOf_pick, h2]) h3 (fun hk rest => by rw [decode_pick]; exact h4 hk rest)

theorem ow4 (g : Garbage) (r : BitVec 32) : (overwrite g.area (le32 r)).length = 8 :=
  overwrite_length (by rw [area_length, le32_length]; omega)
theorem ow2 (g : Garbage) (r : BitVec 16) : (overwrite g.area (le16 r)).length = 8 :=
  overwrite_length (by rw [area_length, le16_length]; omega)
theorem take4 (g : Garbage) (r : BitVec 32) (rest : List Byte) :
    (overwrite g.area (le32 r)).take 4 ++ rest = le32 r ++ rest := take_overwrite _ _ _ (le32_length r)
theorem take2' (g : Garbage) (r : BitVec 16) (rest : List Byte) :
    (overwrite g.area (le16 r)).take 2 ++ rest = le16 r ++ rest := take_overwrite _ _ _ (le16_length r)

theorem image_ok (g : Garbage) (i : Instr) (hwf : i.WF) : Good g i := by
  cases i with
  | pushVar st dtype id =>
    by_cases h : id < 15#16
    · have hs := small_ne_15 h
      refine good_push (n := id.setWidth 4) (m := 0) (by simp only [image, setIdentity_small h]; rfl) ?_ (by omega) ?_
      · cases st <;> simp only [pushExtra, VarStorage.code, if_neg hs] <;> rfl
      · intro _ rest
        rw [decodePush, varOfCode_code, hi_mkByte, lo_mkByte]
        simp only [getIdentity_small h, Option.map_some]
    · by_cases hc : st = .localContent ∨ st = .argumentContent
      · refine good_push (n := 15) (m := 0) (by simp only [image, setIdentity_big h]; rfl) ?_ (by omega) ?_
        · rcases hc with rfl | rfl <;> rfl
        · intro hk; exact absurd (hk hc) h
      · refine good_push (n := 15) (m := 2) (by simp only [image, setIdentity_big h]; rfl) ?_
          (by rw [ow2]; omega) ?_
        · cases st <;> first | rfl | exact absurd (Or.inl rfl) hc | exact absurd (Or.inr rfl) hc
        · intro _ rest
          rw [decodePush, varOfCode_code, hi_mkByte, lo_mkByte, take2']
          simp only [getIdentity_big, Option.map_some]
  | pushRef st dtype ref =>
    by_cases hc : st = .fieldContent ∨ st = .arrayElementContent
    · refine good_push (m := 0) rfl ?_ (by omega) ?_
      · rcases hc with rfl | rfl <;> rfl
      · intro hk; rcases hc with rfl | rfl
        · exact absurd rfl hk.1
        · exact absurd rfl hk.2
    · refine good_push (m := 4) rfl ?_ (by rw [ow4]; omega) ?_
      · cases st <;> first | rfl | exact absurd (Or.inl rfl) hc | exact absurd (Or.inr rfl) hc
      · intro _ rest
        rw [decodePush, varOfCode_refCode, refOfCode_code, take4, lo_mkByte]
        simp only [rd32_le32, Option.map_some]
  | pushConst dtype value =>
    obtain ⟨hd, hl⟩ := hwf
    have hle := sizeOfType_le dtype
    refine good_push (m := sizeOfType dtype) rfl (by simp only [pushExtra, if_neg hd]; rfl) ?_ ?_
    · rw [overwrite_length (by rw [area_length]; omega), area_length]; omega
    · intro _ rest
      rw [take_overwrite _ _ _ hl]
      have e3 : ¬ (value ++ rest).length < sizeOfType dtype := by rw [List.length_append]; omega
      have e4 : (value ++ rest).take (sizeOfType dtype) = value := by rw [← hl, List.take_left]
      rw [decodePush, lo_mkByte, if_neg hd, if_neg e3, e4]; rfl
  | pushGenericConst ref =>
    refine good_push (m := 4) rfl rfl (by rw [ow4]; omega) (fun _ rest => ?_)
    rw [take4, decodePush, lo_mkByte, rd32_le32]; rfl
  | pushObject ot ref =>
    refine good_push (m := 4) rfl rfl (by rw [ow4]; omega) (fun _ rest => ?_)
    rw [take4, decodePush, lo_mkByte, hi_mkByte, rd32_le32]; rfl
  | pushParams =>
    refine good_push (m := 0) rfl rfl (by omega) (fun _ rest => ?_)
    rw [decodePush, hi_mkByte]; rfl
  | pushDuplicate =>
    refine good_push (m := 0) rfl rfl (by omega) (fun _ rest => ?_)
    rw [decodePush, hi_mkByte]; rfl
  | pushConvert t1 t2 =>
    refine good_push (m := 1) rfl rfl
      (by rw [overwrite_length (by rw [area_length]; simp), area_length]; omega) (fun _ rest => ?_)
    rw [decodePush, lo_mkByte, hi_mkByte]; rfl
  | pushBox bt ref =>
    refine good_push (m := 4) rfl rfl (by rw [ow4]; omega) (fun _ rest => ?_)
    rw [take4, decodePush, lo_mkByte, hi_mkByte, rd32_le32]; rfl
  | pushUnbox bt ref =>
    refine good_push (m := 4) rfl rfl (by rw [ow4]; omega) (fun _ rest => ?_)
    rw [take4, decodePush, lo_mkByte, hi_mkByte, rd32_le32]; rfl
  | popEmptyStruct ref =>
    refine good_pop (m := 4) rfl rfl (by rw [ow4]; omega) (fun _ rest => ?_)
    rw [take4, decodePop, lo_mkByte, rd32_le32]; rfl
  | popEmpty dtype =>
    have hd : dtype ≠ 0 := hwf
    refine good_pop (m := 0) rfl (by simp only [popExtra, if_neg hd]; rfl) (by omega) (fun _ rest => ?_)
    rw [decodePop, lo_mkByte, if_pos rfl, if_neg hd]
  | popVar st dtype id =>
    have e0 : ¬ st.code = 0 := by cases st <;> decide
    by_cases h : id < 15#16
    · have hs := small_ne_15 h
      refine good_pop (n := id.setWidth 4) (m := 0) (by simp only [image, setIdentity_small h]; rfl) ?_ (by omega) ?_
      · cases st <;> simp only [popExtra, VarStorage.code, if_neg hs] <;> rfl
      · intro _ rest
        rw [decodePop, if_neg e0, varOfCode_code, hi_mkByte, lo_mkByte]
        simp only [getIdentity_small h, Option.map_some]
    · by_cases hc : st = .localAddr ∨ st = .argumentAddr
      · refine good_pop (n := 15) (m := 0) (by simp only [image, setIdentity_big h]; rfl) ?_ (by omega) ?_
        · rcases hc with rfl | rfl <;> rfl
        · intro hk; exact absurd (hk hc) h
      · refine good_pop (n := 15) (m := 2) (by simp only [image, setIdentity_big h]; rfl) ?_
          (by rw [ow2]; omega) ?_
        · cases st <;> first | rfl | exact absurd (Or.inl rfl) hc | exact absurd (Or.inr rfl) hc | exact absurd rfl hwf.1 | exact absurd rfl hwf.2
        · intro _ rest
          rw [decodePop, if_neg e0, varOfCode_code, hi_mkByte, lo_mkByte, take2']
          simp only [getIdentity_big, Option.map_some]
  | popRef st dtype ref =>
    have e0 : ¬ st.code = 0 := by cases st <;> decide
    by_cases hc : st = .fieldAddr ∨ st = .arrayElementAddr
    · refine good_pop (m := 0) rfl ?_ (by omega) ?_
      · rcases hc with rfl | rfl <;> rfl
      · intro hk; rcases hc with rfl | rfl
        · exact absurd rfl hk.1
        · exact absurd rfl hk.2
    · refine good_pop (m := 4) rfl ?_ (by rw [ow4]; omega) ?_
      · cases st <;> first | rfl | exact absurd (Or.inl rfl) hc | exact absurd (Or.inr rfl) hc | exact absurd rfl hwf.1 | exact absurd rfl hwf.2
      · intro _ rest
        rw [decodePop, if_neg e0, varOfCode_refCode, refOfCode_code, take4, lo_mkByte]
        simp only [rd32_le32, Option.map_some]
  | pickVar st dtype id =>
    by_cases h : id < 15#16
    · have hs := small_ne_15 h
      refine good_pick (n := id.setWidth 4) (m := 0) (by simp only [image, setIdentity_small h]; rfl) ?_ (by omega) ?_
      · cases st <;> simp only [pickExtra, VarStorage.code, if_neg hs] <;> rfl
      · intro _ rest
        rw [decodePick, varOfCode_code, hi_mkByte, lo_mkByte]
        simp only [getIdentity_small h, Option.map_some]
    · by_cases hc : st = .localAddr ∨ st = .argumentAddr
      · refine good_pick (n := 15) (m := 0) (by simp only [image, setIdentity_big h]; rfl) ?_ (by omega) ?_
        · rcases hc with rfl | rfl <;> rfl
        · intro hk; exact absurd (hk hc) h
      · refine good_pick (n := 15) (m := 2) (by simp only [image, setIdentity_big h]; rfl) ?_
          (by rw [ow2]; omega) ?_
        · cases st <;> first | rfl | exact absurd (Or.inl rfl) hc | exact absurd (Or.inr rfl) hc | exact absurd rfl hwf.1 | exact absurd rfl hwf.2
        · intro _ rest
          rw [decodePick, varOfCode_code, hi_mkByte, lo_mkByte, take2']
          simp only [getIdentity_big, Option.map_some]
  | pickRef st dtype ref =>
    by_cases hc : st = .fieldAddr ∨ st = .arrayElementAddr
    · refine good_pick (m := 0) rfl ?_ (by omega) ?_
      · rcases hc with rfl | rfl <;> rfl
      · intro hk; rcases hc with rfl | rfl
        · exact absurd rfl hk.1
        · exact absurd rfl hk.2
    · refine good_pick (m := 4) rfl ?_ (by rw [ow4]; omega) ?_
      · cases st <;> first | rfl | exact absurd (Or.inl rfl) hc | exact absurd (Or.inr rfl) hc | exact absurd rfl hwf.1 | exact absurd rfl hwf.2
      · intro _ rest
        rw [decodePick, varOfCode_refCode, refOfCode_code, take4, lo_mkByte]
        simp only [rd32_le32, Option.map_some]
  | call ct m =>
    have hc : ct ≠ 5 := hwf
    refine ⟨_, 5, rfl, by simp [sizeOf], by omega, by simp, ?_⟩
    intro _ rest
    rw [List.take_of_length_le (by simp)]
    simp [decode]; exact hc
  | callCommand c =>
    refine ⟨_, 5, rfl, by simp [sizeOf], by omega, by simp, ?_⟩
    intro _ rest
    rw [List.take_of_length_le (by simp)]
    simp [decode]
  | jmp m step =>
    obtain ⟨hm, hr⟩ := hwf
    have hm8 : m.setWidth 4 < 8#4 := by
      have : ∀ m : BitVec 3, m.setWidth 4 < 8#4 := by decide
      exact this m
    have hx := jmp_setModel { cmd1 := 5, hdata := 0, e0 := g.b0, e1 := g.b1, e2 := g.b2 } _ hm8
    obtain ⟨y, hy, hys, hym, hyc⟩ := (jmp_step_roundtrip
      (Jmp.setModel { cmd1 := 5, hdata := 0, e0 := g.b0, e1 := g.b1, e2 := g.b2 } (m.setWidth 4)) step).1 hr
    rw [hx.1] at hym
    have hc5 : y.cmd1 = 5 := hyc
    have him : image g (.jmp m step) = some [mkByte y.cmd1 y.hdata, y.e0, y.e1, y.e2] := by
      simp only [image, hy, Option.map_some]
    have hym' : y.hdata &&& 7 = m.setWidth 4 := hym
    have hmw : (m.setWidth 4).setWidth 3 = m := by
      have : ∀ m : BitVec 3, (m.setWidth 4).setWidth 3 = m := by decide
      exact this m
    have hm3 : ¬ m.setWidth 4 = (3 : Nib) := by
      have : ∀ m : BitVec 3, m ≠ 3 → ¬ m.setWidth 4 = (3 : Nib) := by decide
      exact this m hm
    refine ⟨_, 1 + jmpStepSize y.hdata, him, by simp [sizeOf, hc5], by omega, ?_, ?_⟩
    · simp only [jmpStepSize]
      split
      · simp
      · split <;> simp
    · intro _ rest
      rw [hc5]
      have hd : y.distance = y.hdata >>> 3 := rfl
      by_cases h1 : y.hdata >>> 3 = 1
      · have e : jmpStepSize y.hdata = 3 := by
          rw [jmpStepSize, hym', if_neg hm3, if_pos h1]
        have h0 : ¬ y.hdata >>> 3 = 0 := by rw [h1]; decide
        have hst : Jmp.step { cmd1 := 5, hdata := y.hdata, e0 := y.e0, e1 := y.e1, e2 := y.e2 } = some step := by
          rw [← hys]; rfl
        rw [e]
        show decode (mkByte 5 y.hdata :: y.e0 :: y.e1 :: y.e2 :: rest) = _
        rw [decode, lo_mkByte, hi_mkByte]
        show decodeJmp y.hdata (y.e0 :: y.e1 :: y.e2 :: rest) = _
        rw [decodeJmp, hym', if_neg hm3, if_neg h0]
        simp only [hst, hmw, Option.map_some]
      · have h0 : y.hdata >>> 3 = 0 := by
          have : ∀ h : Nib, ¬ h >>> 3 = 1 → h >>> 3 = 0 := by decide
          exact this _ h1
        have e : jmpStepSize y.hdata = 1 := by
          rw [jmpStepSize, hym', if_neg hm3, if_neg h1]
        have hst : Jmp.step { cmd1 := 5, hdata := y.hdata, e0 := y.e0, e1 := 0, e2 := 0 } = some step := by
          have h0' : y.distance = 0#4 := h0
          have h0'' : Jmp.distance { cmd1 := 5, hdata := y.hdata, e0 := y.e0, e1 := 0, e2 := 0 } = 0#4 := h0
          rw [← hys, Jmp.step, Jmp.step, if_pos h0', if_pos h0'']
        rw [e]
        show decode (mkByte 5 y.hdata :: y.e0 :: rest) = _
        rw [decode, lo_mkByte, hi_mkByte]
        show decodeJmp y.hdata (y.e0 :: rest) = _
        simp only [decodeJmp, hym', if_neg hm3, if_pos h0, hst, hmw, Option.map_some]
  | switch tbl =>
    have hr : 0 ≤ tbl.toInt ∧ tbl.toInt ≤ 255 := hwf
    obtain ⟨y, hy, hys, hym, hyc⟩ := (jmp_step_roundtrip
      (Jmp.setModel { cmd1 := 5, hdata := 0, e0 := g.b0, e1 := g.b1, e2 := g.b2 } 3) 0).1 (by decide)
    obtain ⟨z, hz, hzt, hzm⟩ := (jmp_tbl_roundtrip y tbl).1 hr
    have hx := jmp_setModel { cmd1 := 5, hdata := 0, e0 := g.b0, e1 := g.b1, e2 := g.b2 } 3 (by decide)
    have hz2 : z = { y with e0 := tbl.setWidth 8 } := by
      rw [Jmp.setTbl, if_neg (by omega)] at hz
      exact (Option.some.inj hz).symm
    have hc5 : z.cmd1 = 5 := by rw [hz2]; exact hyc
    have hzm3 : z.hdata &&& 7 = 3 := by
      have : z.hdata &&& 7 = z.model := rfl
      rw [this, hzm, hym]; exact hx.1
    have him : image g (.switch tbl) = some [mkByte z.cmd1 z.hdata, z.e0, z.e1, z.e2] := by
      simp only [image, hy, hz, Option.bind_some, Option.map_some]
    refine ⟨_, 1 + 1, him, ?_, by omega, by simp, ?_⟩
    · rw [hc5, sizeOf, lo_mkByte, hi_mkByte]
      show some (1 + jmpStepSize z.hdata) = _
      rw [jmpStepSize, if_pos hzm3]
    intro _ rest
    have : Jmp.tbl { cmd1 := 5, hdata := z.hdata, e0 := z.e0, e1 := 0, e2 := 0 } = tbl := by
      rw [← hzt]; rfl
    rw [hc5]
    show decode (mkByte 5 z.hdata :: z.e0 :: rest) = _
    rw [decode, lo_mkByte, hi_mkByte]
    show decodeJmp z.hdata (z.e0 :: rest) = _
    simp only [decodeJmp, if_pos hzm3, this]
  | smp s => exact ⟨_, 1, rfl, by simp [sizeOf], by omega, by simp, by intro _ rest; simp [decode]⟩
  | al c t1 t2 => exact ⟨_, 2, rfl, by simp [sizeOf], by omega, by simp, by intro _ rest; simp [decode]⟩
  | cmp c t1 t2 => exact ⟨_, 2, rfl, by simp [sizeOf], by omega, by simp, by intro _ rest; simp [decode]⟩
  | logic c => exact ⟨_, 1, rfl, by simp [sizeOf], by omega, by simp, by intro _ rest; simp [decode]⟩
  | bit c t1 t2 => exact ⟨_, 2, rfl, by simp [sizeOf], by omega, by simp, by intro _ rest; simp [decode]⟩
  | cast c ref =>
    refine ⟨_, 5, rfl, by simp [sizeOf], by omega, by simp, ?_⟩
    intro _ rest
    rw [List.take_of_length_le (by simp)]
    simp [decode]
  | new nt ref =>
    have hn : nt ≠ 4 := hwf
    refine ⟨_, 5, rfl, ?_, by omega, by simp, ?_⟩
    · simp [sizeOf]; exact hn
    · intro _ rest
      have : (mkByte 12 nt :: (le32 ref ++ g.area.take 4)).take 5 = mkByte 12 nt :: le32 ref := by
        rfl
      rw [this]
      simp [decode]; exact hn
  | newStackAllocs ref count =>
    refine ⟨_, 9, rfl, by simp [sizeOf], by omega, by simp, ?_⟩
    intro _ rest
    rw [List.take_of_length_le (by simp)]
    have : (le32 ref ++ (le32 count ++ rest)).drop 4 = le32 count ++ rest := by
      rw [← le32_length ref, List.drop_left]
    simp [decode, this]
  | copy generic kind ref =>
    refine ⟨_, 6, rfl, by cases generic <;> simp [sizeOf], by omega, by simp, ?_⟩
    intro _ rest
    rw [List.take_of_length_le (by simp)]
    cases generic <;> simp [decode]
  | init it dtype =>
    have hd : dtype ≠ 0 := hwf
    refine ⟨_, 2 + 0, rfl, by simp [sizeOf]; exact hd, by omega, by simp, ?_⟩
    intro _ rest
    simp only [take2]
    simp [decode]; exact hd
  | initRef it ref =>
    refine ⟨_, 6, rfl, by simp [sizeOf], by omega, by simp, ?_⟩
    intro _ rest
    rw [List.take_of_length_le (by simp)]
    simp [decode]

end Verif.Xil
