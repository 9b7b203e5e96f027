import Verif.Proof.XilDecode

/-!
# C06 instruction stream, C07 variable operands, C08 reader progress, C09 type codes
-/

namespace Verif.Xil

open Verif.Bits

/-! ## C06: boundaries -/

/-- **C06 (boundaries).**  Reading back the bytes of any sequence of instruction objects yields the same
number of instructions, at the same places, with the same bytes: the `i`-th address handed out starts with
exactly the bytes written for the `i`-th object.  `sizeOf img ≠ some 0` says the object's command is one
of the commands of the instruction set. -/
theorem stream_split (imgs : List (List Byte)) (bs : List Byte) (h : writeAll imgs = some bs)
    (hcmd : ∀ img ∈ imgs, sizeOf img ≠ some 0) (fuel : Nat) (hf : imgs.length ≤ fuel) :
    ∃ xs, readAll fuel bs = .done xs ∧ xs.length = imgs.length ∧
      ∀ (i : Nat) (hi : i < imgs.length) (hx : i < xs.length),
        ∃ w rest, written imgs[i] = some w ∧ xs[i] = w ++ rest ∧ sizeOf xs[i] = some w.length := by
  induction imgs generalizing bs fuel with
  | nil =>
    simp only [writeAll, Option.some.injEq] at h
    subst h
    exact ⟨[], by cases fuel <;> rfl, rfl, fun i hi => absurd hi (by simp)⟩
  | cons img rest ih =>
    rw [writeAll] at h
    split at h
    · rename_i a b ha hb
      cases h
      obtain ⟨n, hn, hle, rfl⟩ := written_spec ha
      have hpos : 0 < n := by
        rcases Nat.eq_zero_or_pos n with h0 | h0
        · exact absurd (h0 ▸ hn) (hcmd img (by simp))
        · exact h0
      obtain ⟨f, rfl⟩ : ∃ f, fuel = f + 1 := ⟨fuel - 1, by simp at hf; omega⟩
      obtain ⟨xs, h1, h2, h3⟩ := ih b hb (fun x hx => hcmd x (by simp [hx])) f (by simpa using hf)
      have hsz := sizeOf_take img n hn hpos b
      have hlen : (img.take n).length = n := by simp; omega
      have hdrop : (img.take n ++ b).drop n = b := by
        conv => lhs; arg 1; rw [← hlen]
        rw [List.drop_left]
      refine ⟨(img.take n ++ b) :: xs, ?_, by simp [h2], ?_⟩
      · generalize hg : img.take n ++ b = g at *
        cases g with
        | nil => simp [sizeOf] at hsz
        | cons c cs =>
          rw [readAll, hsz]
          simp only [hdrop, h1, ReadResult.push]
      · intro i hi hx
        cases i with
        | zero => exact ⟨img.take n, b, ha, rfl, by simpa [hlen] using hsz⟩
        | succ i =>
          simp only [List.getElem_cons_succ]
          exact h3 i (by simpa using hi) (by simpa using hx)
    · cases h

/-! ## C06: operations and operands -/

/-- One instruction on its own: its bytes exist, are at least one, and (if its operand is kept) decode to it
whatever follows them in the buffer. -/
theorem instr_written (g : Garbage) (i : Instr) (hwf : i.WF) :
    ∃ w, emit [(i, g)] = some w ∧ 0 < w.length ∧
      (i.OperandKept → ∀ rest, decode (w ++ rest) = some i) := by
  obtain ⟨img, n, h1, h2, h3, h4, h5⟩ := image_ok g i hwf
  have hw : written img = some (img.take n) := by rw [written, h2]; simp only [if_pos h4]
  refine ⟨img.take n, ?_, by simp; omega, h5⟩
  simp [emit, h1, writeAll, hw]

theorem emit_cons {p : Instr × Garbage} {prog : List (Instr × Garbage)} {bs : List Byte}
    (h : emit (p :: prog) = some bs) :
    ∃ a b, emit [p] = some a ∧ emit prog = some b ∧ bs = a ++ b := by
  simp only [emit, List.mapM_cons, List.mapM_nil, Option.bind_eq_bind, Option.pure_def] at h ⊢
  cases hi : image p.2 p.1 with
  | none => simp [hi] at h
  | some img =>
    cases hm : List.mapM (fun p : Instr × Garbage => image p.2 p.1) prog with
    | none => simp [hi, hm] at h
    | some imgs =>
      simp only [hi, hm, Option.bind_some, writeAll] at h ⊢
      split at h
      · rename_i a b ha hb
        cases h
        exact ⟨a, b, by simp [ha], hb, rfl⟩
      · cases h

theorem emit_append_some {p : Instr × Garbage} {prog : List (Instr × Garbage)} {a b : List Byte}
    (ha : emit [p] = some a) (hb : emit prog = some b) : emit (p :: prog) = some (a ++ b) := by
  simp only [emit, List.mapM_cons, List.mapM_nil, Option.bind_eq_bind, Option.pure_def] at ha hb ⊢
  cases hi : image p.2 p.1 with
  | none => simp [hi] at ha
  | some img =>
    cases hm : List.mapM (fun p : Instr × Garbage => image p.2 p.1) prog with
    | none => simp [hm] at hb
    | some imgs =>
      simp only [hi, hm, Option.bind_some, writeAll] at ha hb ⊢
      cases hw : written img with
      | none => simp [hw] at ha
      | some w =>
        simp only [hw, List.append_nil, Option.some.injEq] at ha
        subst ha
        simp only [hb]

/-- **C06 (boundaries, every instruction).**  Every sequence of instructions the constructors can build is
written without error, and the reader then hands out exactly as many instructions, where the `i`-th one
starts with the bytes of the `i`-th instruction and is followed by the rest of the stream. -/
theorem stream_boundaries (prog : List (Instr × Garbage)) (hwf : ∀ p ∈ prog, p.1.WF) :
    ∃ bs, emit prog = some bs ∧ ∀ fuel, prog.length ≤ fuel → ∃ xs, readAll fuel bs = .done xs ∧
      xs.length = prog.length ∧
      ∀ i, i < prog.length → ∃ w, emit (prog.drop i |>.take 1) = some w ∧
        xs[i]? = (emit (prog.drop i)) ∧ ∃ rest, xs[i]? = some (w ++ rest) := by
  induction prog with
  | nil => exact ⟨[], rfl, fun fuel _ => ⟨[], by cases fuel <;> rfl, rfl, fun i hi => absurd hi (by simp)⟩⟩
  | cons p prog ih =>
    obtain ⟨b, hb, hrd⟩ := ih (fun q hq => hwf q (by simp [hq]))
    obtain ⟨img, n, h1, h2, h3, h4, -⟩ := image_ok p.2 p.1 (hwf p (by simp))
    have hw : written img = some (img.take n) := by rw [written, h2]; simp only [if_pos h4]
    have ha : emit [p] = some (img.take n) := by simp [emit, h1, writeAll, hw]
    have hall := emit_append_some ha hb
    refine ⟨img.take n ++ b, hall, fun fuel hf => ?_⟩
    obtain ⟨f, rfl⟩ : ∃ f, fuel = f + 1 := ⟨fuel - 1, by simp at hf; omega⟩
    obtain ⟨xs, hx1, hx2, hx3⟩ := hrd f (by simpa using hf)
    have hsz := sizeOf_take img n h2 h3 b
    have hlen : (img.take n).length = n := by simp; omega
    have hdrop : (img.take n ++ b).drop n = b := by
      conv => lhs; arg 1; rw [← hlen]
      rw [List.drop_left]
    refine ⟨(img.take n ++ b) :: xs, ?_, by simp [hx2], ?_⟩
    · generalize hg : img.take n ++ b = g at *
      cases g with
      | nil => simp [sizeOf] at hsz
      | cons c cs =>
        rw [readAll, hsz]
        simp only [hdrop, hx1, ReadResult.push]
    · intro i hi
      cases i with
      | zero => exact ⟨img.take n, by simpa using ha, by simp [hall], b, by simp⟩
      | succ i => simpa using hx3 i (by simpa using hi)

/-- **C06, without the operand forms the size function forgets** (`Instr.OperandKept`; see `stream_refuted`):
for every sequence of instructions, whatever memory their objects were built in, the instructions read back
are the instructions written: same number, same order, same operations and operands. -/
theorem stream_decode_partial (prog : List (Instr × Garbage))
    (hwf : ∀ p ∈ prog, p.1.WF) (hk : ∀ p ∈ prog, p.1.OperandKept) :
    ∃ bs, emit prog = some bs ∧ ∀ fuel, prog.length ≤ fuel →
      ∃ xs, readAll fuel bs = .done xs ∧ xs.map decode = prog.map fun p => some p.1 := by
  obtain ⟨bs, hbs, h⟩ := stream_boundaries prog hwf
  refine ⟨bs, hbs, fun fuel hf => ?_⟩
  obtain ⟨xs, h1, h2, h3⟩ := h fuel hf
  refine ⟨xs, h1, ?_⟩
  apply List.ext_getElem?
  intro i
  by_cases hi : i < prog.length
  · obtain ⟨w, hw1, -, rest, hw3⟩ := h3 i hi
    have hd : (prog.drop i).take 1 = [prog[i]] := by
      rw [List.drop_eq_getElem_cons hi]; rfl
    rw [hd] at hw1
    have hmem : prog[i] ∈ prog := List.getElem_mem hi
    obtain ⟨w', hw', -, hdec⟩ := instr_written prog[i].2 prog[i].1 (hwf _ hmem)
    have : w' = w := by
      have : emit [(prog[i].1, prog[i].2)] = emit [prog[i]] := rfl
      rw [this, hw1] at hw'
      exact (Option.some.inj hw').symm
    subst this
    rw [List.getElem?_map, hw3, List.getElem?_map, List.getElem?_eq_getElem hi]
    simp only [Option.map_some, hdec (hk _ hmem) rest]
  · rw [List.getElem?_eq_none (by simp; omega), List.getElem?_eq_none (by simp; omega)]

/-- **C06 is false in general**: there is no reader at all that could recover the instructions, because two
different one-instruction methods have the same bytes (the number of a variable pushed through its content
is not written from 15 on). -/
theorem stream_refuted :
    ¬ ∃ dec : List Byte → Option (List Instr), ∀ prog : List (Instr × Garbage), (∀ p ∈ prog, p.1.WF) →
      ∀ bs, emit prog = some bs → dec bs = some (prog.map fun p => p.1) := by
  rintro ⟨dec, h⟩
  let g : Garbage := ⟨0, 0, 0, 0, 0, 0, 0, 0, 0⟩
  have h1 := h [(.pushVar .localContent 5 15, g)] (by simp [Instr.WF]) [mkByte 1 10, mkByte 5 15] (by decide)
  have h2 := h [(.pushVar .localContent 5 16, g)] (by simp [Instr.WF]) [mkByte 1 10, mkByte 5 15] (by decide)
  rw [h1] at h2
  exact absurd h2 (by decide)

/-- Non-vacuity: a body with a long and a short variable number, a constant, an addition, a call, a backward
jump and a return satisfies the hypotheses of `stream_decode_partial`. -/
example : ∃ bs, emit
    [(.pushVar .local 5 300, ⟨1, 2, 3, 4, 5, 6, 7, 8, 9⟩), (.pushConst 5 [1, 0, 0, 0], ⟨9, 9, 9, 9, 9, 9, 9, 9, 9⟩),
     (.al 1 5 5, ⟨0, 0, 0, 0, 0, 0, 0, 0, 0⟩), (.popVar .argument 5 3, ⟨0, 0, 0, 0, 0, 0, 0, 0, 0⟩),
     (.call 3 0x01000005, ⟨0, 0, 0, 0, 0, 0, 0, 0, 0⟩), (.jmp 1 (-4), ⟨0, 0, 0, 0, 0, 0, 0, 0, 0⟩),
     (.smp 2, ⟨0, 0, 0, 0, 0, 0, 0, 0, 0⟩)] = some bs ∧
    ∀ fuel, 7 ≤ fuel → ∃ xs, readAll fuel bs = .done xs ∧ xs.map decode =
      [some (.pushVar .local 5 300), some (.pushConst 5 [1, 0, 0, 0]), some (.al 1 5 5),
       some (.popVar .argument 5 3), some (.call 3 0x01000005), some (.jmp 1 (-4)), some (.smp 2)] := by
  refine stream_decode_partial _ ?_ ?_
  · simp only [List.mem_cons, List.not_mem_nil, or_false, forall_eq_or_imp, forall_eq, Instr.WF]
    decide
  · simp only [List.mem_cons, List.not_mem_nil, or_false, forall_eq_or_imp, forall_eq, Instr.OperandKept]
    decide

/-! ## C07: variable numbers -/

/-- **C07, exactly where it holds.**  For `push`, `pop` and `pick` of a local variable or argument, by value,
by address or by content, with every 16-bit number: the number decodes to the one the instruction was built
with — in every memory and before every continuation of the stream — exactly when the form is one whose
operand `size_of` counts or the number is below 15. -/
theorem var_operand_iff (i : Instr) (hwf : i.WF)
    (hv : (∃ st d id, i = .pushVar st d id) ∨ (∃ st d id, i = .popVar st d id) ∨
      (∃ st d id, i = .pickVar st d id)) :
    (∀ g rest, ∃ w, emit [(i, g)] = some w ∧ decode (w ++ rest) = some i) ↔ i.OperandKept := by
  constructor
  · intro h
    obtain ⟨w, hw, hd⟩ := h ⟨0, 0, 0, 0, 0, 0, 0, 0, 0⟩ []
    rw [List.append_nil] at hd
    rcases hv with ⟨st, d, id, rfl⟩ | ⟨st, d, id, rfl⟩ | ⟨st, d, id, rfl⟩
    · intro hst
      by_cases hid : id < 15#16
      · exact hid
      exfalso
      have hw2 : w = [mkByte 1 st.code, mkByte d 15] := by
        rcases hst with rfl | rfl <;>
        · simp only [emit, List.mapM_cons, List.mapM_nil, Option.bind_eq_bind, Option.pure_def,
            Option.bind_some, image, setIdentity_big hid, pushHead, writeAll, written, sizeOf_push] at hw
          exact (Option.some.inj hw).symm
      rw [hw2, decode_push] at hd
      rcases hst with rfl | rfl <;>
      · simp only [decodePush, varOfCode_code, hi_mkByte, 
          show getIdentity 15 [] = none from rfl, Option.map_none] at hd
        cases hd
    · intro hst
      by_cases hid : id < 15#16
      · exact hid
      exfalso
      have hw2 : w = [mkByte 2 st.code, mkByte d 15] := by
        rcases hst with rfl | rfl <;>
        · simp only [emit, List.mapM_cons, List.mapM_nil, Option.bind_eq_bind, Option.pure_def,
            Option.bind_some, image, setIdentity_big hid, pushHead, writeAll, written, sizeOf_pop] at hw
          exact (Option.some.inj hw).symm
      rw [hw2, decode_pop] at hd
      rcases hst with rfl | rfl <;>
      · simp only [decodePop, varOfCode_code, hi_mkByte, if_neg (show ¬ VarStorage.localAddr.code = 0 by decide), if_neg (show ¬ VarStorage.argumentAddr.code = 0 by decide), 
          show getIdentity 15 [] = none from rfl, Option.map_none] at hd
        cases hd
    · intro hst
      by_cases hid : id < 15#16
      · exact hid
      exfalso
      have hw2 : w = [mkByte 3 st.code, mkByte d 15] := by
        rcases hst with rfl | rfl <;>
        · simp only [emit, List.mapM_cons, List.mapM_nil, Option.bind_eq_bind, Option.pure_def,
            Option.bind_some, image, setIdentity_big hid, pushHead, writeAll, written, sizeOf_pick] at hw
          exact (Option.some.inj hw).symm
      rw [hw2, decode_pick] at hd
      rcases hst with rfl | rfl <;>
      · simp only [decodePick, varOfCode_code, hi_mkByte, 
          show getIdentity 15 [] = none from rfl, Option.map_none] at hd
        cases hd
  · intro hk g rest
    obtain ⟨w, h1, -, h2⟩ := instr_written g i hwf
    exact ⟨w, h1, h2 hk rest⟩

/-- **C07 (proved part).**  Loads of a local or argument by value or address, and stores and peeks by value,
keep every 16-bit variable number. -/
theorem var_operand_partial (d : Nib) (id : BitVec 16) (g : Garbage) (rest : List Byte) (i : Instr)
    (hi : i ∈ [Instr.pushVar .local d id, .pushVar .argument d id, .pushVar .localAddr d id,
      .pushVar .argumentAddr d id, .popVar .local d id, .popVar .argument d id, .pickVar .local d id,
      .pickVar .argument d id]) :
    ∃ w, emit [(i, g)] = some w ∧ decode (w ++ rest) = some i := by
  have hwf : i.WF := by
    simp only [List.mem_cons, List.not_mem_nil, or_false] at hi
    rcases hi with rfl | rfl | rfl | rfl | rfl | rfl | rfl | rfl <;> simp [Instr.WF]
  have hk : i.OperandKept := by
    simp only [List.mem_cons, List.not_mem_nil, or_false] at hi
    rcases hi with rfl | rfl | rfl | rfl | rfl | rfl | rfl | rfl <;> simp [Instr.OperandKept]
  obtain ⟨w, h1, -, h2⟩ := instr_written g i hwf
  exact ⟨w, h1, h2 hk rest⟩

/-- **C07 is false in general**: storing through the address in local variable 20 and in local variable 21
are written as the same bytes. -/
theorem var_operand_refuted (g : Garbage) :
    emit [(.popVar .localAddr 5 20, g)] = emit [(.popVar .localAddr 5 21, g)] ∧
    (emit [(.popVar .localAddr 5 20, g)]).isSome := ⟨rfl, rfl⟩

/-- Non-vacuity of `var_operand_iff`: both sides hold for `pop local 65535`, both fail for
`push content of argument 15`. -/
example : Instr.WF (.popVar .local 5 65535) ∧ Instr.OperandKept (.popVar .local 5 65535) ∧
    Instr.WF (.pushVar .argumentContent 5 15) ∧ ¬ Instr.OperandKept (.pushVar .argumentContent 5 15) := by
  simp [Instr.WF, Instr.OperandKept]

/-! ## C08: progress -/

/-- The first byte of an instruction of the instruction set: command codes 0 to 12, or 15 with an extended
code 0 or 1 (`modules/core/__xil.h:216-258`). -/
def KnownCommand (b : Byte) : Prop :=
  (lo b).toNat ≤ 12 ∨ ((lo b).toNat = 15 ∧ (hi b).toNat ≤ 1)

/-- **C08 (one read).**  A read that succeeds moves the cursor forward exactly when the byte at the cursor
is a command of the instruction set. -/
theorem read_advances_iff (b : Byte) (rest : List Byte) (n : Nat) (h : sizeOf (b :: rest) = some n) :
    0 < n ↔ KnownCommand b := by
  have hb : (lo b).toNat < 16 := (lo b).isLt
  rw [sizeOf] at h
  unfold KnownCommand
  split at h
  all_goals first
    | (cases h; omega)
    | (cases h; grind)
    | (cases hr : rest.head? with
        | none => rw [hr] at h; cases h
        | some c => rw [hr, Option.map_some, Option.some.injEq] at h; omega)
    | skip
  rename_i h15
  split at h
  all_goals first
    | (cases h; omega)
    | (cases h; grind)
    | (cases hr : rest.head? with
        | none => rw [hr] at h; cases h
        | some c => rw [hr, Option.map_some, Option.some.injEq] at h; omega)

/-- **C08, for buffers of known commands.**  If at every position of the buffer stands a known command (in
particular at every position the reader stops at), the reading loop ends after at most one read per byte. -/
theorem reader_terminates_partial (bs : List Byte) (h : ∀ b ∈ bs, KnownCommand b) (fuel : Nat)
    (hf : bs.length ≤ fuel) : ∀ xs, readAll fuel bs ≠ .running xs := by
  induction fuel generalizing bs with
  | zero =>
    have : bs = [] := List.eq_nil_of_length_eq_zero (by omega)
    subst this
    intro xs; simp [readAll]
  | succ fuel ih =>
    intro xs
    cases bs with
    | nil => simp [readAll]
    | cons b rest =>
      rw [readAll]
      cases hs : sizeOf (b :: rest) with
      | none => simp
      | some n =>
        have hn := (read_advances_iff b rest n hs).2 (h b (by simp))
        have := ih ((b :: rest).drop n) (fun c hc => h c (List.mem_of_mem_drop hc))
          (by simp at hf ⊢; omega)
        simp only
        intro hc
        cases hr : readAll fuel ((b :: rest).drop n) with
        | done ys => rw [hr] at hc; cases hc
        | outOfBounds ys => rw [hr] at hc; cases hc
        | running ys => exact this ys hr

/-- **C08 is false in general**: on the one-byte buffer `0D` (no such command) the loop never ends, it hands
out the same address for ever. -/
theorem reader_terminates_refuted (fuel : Nat) :
    readAll fuel [0x0D#8] = .running (List.replicate fuel [0x0D#8]) := by
  induction fuel with
  | zero => rfl
  | succ fuel ih =>
    have hs : sizeOf [0x0D#8] = some 0 := by decide
    rw [readAll, hs]
    simp only [List.drop_zero, ih, ReadResult.push, List.replicate_succ]

example : ∀ b ∈ [mkByte 1 1, mkByte 5 3, mkByte 6 2], KnownCommand b := by
  simp only [List.mem_cons, List.not_mem_nil, or_false, forall_eq_or_imp, forall_eq, KnownCommand]
  decide

/-! ## C09: type codes -/

/-- **C09, for the types values have.**  Apart from `void`, `default` and the unknown type, every value type
has a code, the code gives the type back, and different types have different codes. -/
theorem type_code_partial (v : VType) (h1 : v ≠ .void) (h2 : v ≠ .default) (h3 : v ≠ .unknown) :
    (∃ c, toXilType v = some c ∧ toVType c = v) ∧
      ∀ v', toXilType v' = toXilType v → v' = v := by
  refine ⟨?_, ?_⟩
  · cases v <;> first | exact ⟨_, rfl, rfl⟩ | exact absurd rfl h1 | exact absurd rfl h2 | exact absurd rfl h3
  · intro v' h
    cases v <;> cases v' <;>
      first | rfl | exact absurd rfl h1 | exact absurd rfl h2 | exact absurd rfl h3 | exact absurd h (by decide)

/-- **C09 is false in general**: `void` and the default type share a code, and it does not give `void` back. -/
theorem type_code_refuted : toXilType .void = toXilType .default ∧ toXilType .void = some 0 ∧
    toVType 0 ≠ .void := ⟨rfl, rfl, by decide⟩

/-- Every code but 0 comes from exactly one value type. -/
theorem type_code_surjective (c : Nib) (h : c ≠ 0) : toXilType (toVType c) = some c := by
  have : ∀ c : Nib, c ≠ 0 → toXilType (toVType c) = some c := by decide
  exact this c h

example : toXilType .uint16 = some 4 ∧ toVType 4 = .uint16 := ⟨rfl, rfl⟩

end Verif.Xil
