import Verif.Model.Body
import Verif.Props.Xil

/-! # C44: method bodies survive serialisation -/

namespace Verif.Body.Props

open Verif.Xil

theorem cat16 (x : BitVec 16) : x.extractLsb' 8 8 ++ x.extractLsb' 0 8 = x := by
  apply BitVec.eq_of_getLsbD_eq
  intro i hi
  simp only [BitVec.getLsbD_append, BitVec.getLsbD_extractLsb']
  by_cases h : i < 8
  · simp [h]
  · simp only [h, decide_false, Bool.false_eq_true, if_false]
    rw [show 8 + (i - 8) = i by omega, decide_eq_true (by omega : i - 8 < 8), Bool.true_and]

theorem cat32 (x : BitVec 32) :
    x.extractLsb' 24 8 ++ x.extractLsb' 16 8 ++ x.extractLsb' 8 8 ++ x.extractLsb' 0 8 = x := by
  apply BitVec.eq_of_getLsbD_eq
  intro i hi
  simp only [BitVec.getLsbD_append, BitVec.getLsbD_extractLsb']
  by_cases h : i < 8
  · simp [h]
  · simp only [h, decide_false, Bool.false_eq_true, if_false]
    by_cases h2 : i - 8 < 8
    · simp only [h2, decide_true, Bool.true_and, if_true]
      rw [show 8 + (i - 8) = i by omega]
    · simp only [h2, decide_false, Bool.false_eq_true, if_false]
      by_cases h3 : i - 8 - 8 < 8
      · simp only [h3, decide_true, Bool.true_and, if_true]
        rw [show 16 + (i - 8 - 8) = i by omega]
      · simp only [h3, decide_false, Bool.false_eq_true, if_false]
        rw [show 24 + (i - 8 - 8 - 8) = i by omega, decide_eq_true (by omega : i - 8 - 8 - 8 < 8), Bool.true_and]

theorem read16_le (x : BitVec 16) (rest : List Byte) : read16 (le16 x ++ rest) = .ok (x, rest) := by
  simp only [le16, List.cons_append, List.nil_append, read16, cat16]

theorem read32_le (x : BitVec 32) (rest : List Byte) : read32 (le32 x ++ rest) = .ok (x, rest) := by
  simp only [le32, List.cons_append, List.nil_append, read32, cat32]

theorem lo_mkByte (a b : Nib) : lo (mkByte a b) = a := by
  revert a b; decide

theorem readStub_stub (t t' : Nib) (n : BitVec 16) (rest : List Byte) :
    readStub t (stub t' n ++ rest) =
      if t' = t then .ok (some n, rest) else .ok (none, stub t' n ++ rest) := by
  simp only [stub, le16, List.cons_append, List.nil_append, readStub, lo_mkByte, cat16]

theorem repeatRead_flatMap {α β : Type} (f : List Byte → Except Err (β × List Byte)) (w : α → List Byte) (g : α → β)
    (xs : List α) (h : ∀ x ∈ xs, ∀ rest, f (w x ++ rest) = .ok (g x, rest)) (rest : List Byte) :
    repeatRead f xs.length (xs.flatMap w ++ rest) = .ok (xs.map g, rest) := by
  induction xs with
  | nil => rfl
  | cons x xs ih =>
    rw [List.length_cons, List.flatMap_cons, List.append_assoc, repeatRead, h x List.mem_cons_self]
    simp only
    rw [ih (fun y hy => h y (List.mem_cons_of_mem _ hy))]
    rfl

theorem readVar_write (v : Var) (rest : List Byte) : readVar (writeVar v ++ rest) = .ok ((v.ref, v.index), rest) := by
  simp only [readVar, writeVar, List.append_assoc, read32_le, read16_le]

theorem readRow_write (r : Row) (rest : List Byte) : readRow (writeRow r ++ rest) = .ok (r, rest) := by
  simp only [readRow, writeRow, List.append_assoc, read32_le]

theorem readTable_write (t : Table) (h : t.rows.length < 65536) (rest : List Byte) :
    readTable (writeTable t ++ rest) = .ok (⟨BitVec.ofNat 16 t.rows.length, t.dflt, t.rows⟩, rest) := by
  have hn : (BitVec.ofNat 16 t.rows.length).toNat = t.rows.length := by
    rw [BitVec.toNat_ofNat]; exact Nat.mod_eq_of_lt h
  have hr := repeatRead_flatMap readRow writeRow id t.rows (fun r _ rest => readRow_write r rest) rest
  simp only [List.map_id] at hr
  simp only [readTable, writeTable, List.append_assoc, read16_le, read32_le, hn, List.take_length, hr]

theorem readBlock_write (b : Block) (rest : List Byte) : readBlock (writeBlock b ++ rest) = .ok (b, rest) := by
  simp only [readBlock, writeBlock, List.cons_append, List.nil_append, List.append_assoc, read32_le]

theorem readPart_other {α : Type} (t t' : Nib) (h : t' ≠ t) (f : List Byte → Except Err (α × List Byte)) (n : BitVec 16)
    (rest : List Byte) : readPart t f (stub t' n ++ rest) = .ok ([], stub t' n ++ rest) := by
  rw [readPart, readStub_stub, if_neg h]

theorem readPart_same {α β : Type} (t : Nib) (f : List Byte → Except Err (β × List Byte)) (w : α → List Byte)
    (g : α → β) (xs : List α) (hl : xs.length < 65536) (h : ∀ x ∈ xs, ∀ rest, f (w x ++ rest) = .ok (g x, rest))
    (rest : List Byte) :
    readPart t f (stub t (BitVec.ofNat 16 xs.length) ++ (xs.flatMap w ++ rest)) = .ok (xs.map g, rest) := by
  have hn : (BitVec.ofNat 16 xs.length).toNat = xs.length := by
    rw [BitVec.toNat_ofNat]; exact Nat.mod_eq_of_lt hl
  rw [readPart, readStub_stub, if_pos rfl]
  simp only
  rw [hn, repeatRead_flatMap f w g xs h]

/-- **C44**, for fewer than 65536 variables, tables, blocks and rows of a table.  What is read from a
stored body is what was written: each variable with its type and index, in their order; each switch table;
each block; the bytes of the instructions.  A method without instructions is stored as nothing. -/
theorem body_round_trip_partial (vs : List Var) (ts : List Table) (bs : List Block) (code : List Byte) (hc : code ≠ [])
    (hv : vs.length < 65536) (ht : ts.length < 65536) (hb : bs.length < 65536) (hr : ∀ t ∈ ts, t.rows.length < 65536) :
    readMethod (writeMethod vs ts bs code) =
      .ok ⟨vs.map (fun v => (v.ref, v.index)), ts.map (fun t => ⟨BitVec.ofNat 16 t.rows.length, t.dflt, t.rows⟩),
        bs, code⟩ := by
  have h1 : ∀ rest, readPart 1 readVar (writeVars vs ++ (writeTables ts ++ rest)) =
      .ok (vs.map (fun v => (v.ref, v.index)), writeTables ts ++ rest) := by
    intro rest
    rw [writeVars]
    split
    · rename_i h
      rw [List.length_eq_zero_iff] at h
      subst h
      rw [List.nil_append, writeTables, List.append_assoc, readPart_other 1 2 (by decide)]
      rfl
    · rw [List.append_assoc, readPart_same 1 readVar writeVar _ vs hv (fun v _ rest => readVar_write v rest)]
  have h2 : ∀ rest, readPart 2 readTable (writeTables ts ++ rest) =
      .ok (ts.map (fun t => ⟨BitVec.ofNat 16 t.rows.length, t.dflt, t.rows⟩), rest) := by
    intro rest
    rw [writeTables, List.append_assoc, readPart_same 2 readTable writeTable _ ts ht
      (fun t h rest => readTable_write t (hr t h) rest)]
  have h3 : readPart 3 readBlock (writeBlocks bs ++ (stub 15 0 ++ code)) = .ok (bs, stub 15 0 ++ code) := by
    rw [writeBlocks]
    split
    · rename_i h
      subst h
      rw [List.nil_append, readPart_other 3 15 (by decide)]
    · rw [List.append_assoc, readPart_same 3 readBlock writeBlock id bs hb (fun b _ rest => readBlock_write b rest)]
      rw [List.map_id]
  rw [writeMethod, if_neg hc]
  simp only [readMethod, List.append_assoc, h1, h2, h3, readStub_stub, if_pos]

/-- **C44** with the instructions: they are read back as they were (for the operands that C06 keeps). -/
theorem body_instructions_partial (vs : List Var) (ts : List Table) (bs : List Block) (prog : List (Instr × Garbage))
    (hp : prog ≠ []) (hv : vs.length < 65536) (ht : ts.length < 65536) (hb : bs.length < 65536)
    (hr : ∀ t ∈ ts, t.rows.length < 65536) (hwf : ∀ p ∈ prog, p.1.WF) (hk : ∀ p ∈ prog, p.1.OperandKept) :
    ∃ code, emit prog = some code ∧ ∃ r, readMethod (writeMethod vs ts bs code) = .ok r ∧
      r.vars = vs.map (fun v => (v.ref, v.index)) ∧ r.tables.map (fun t => (t.dflt, t.rows)) = ts.map (fun t => (t.dflt, t.rows)) ∧
      r.blocks = bs ∧
      ∃ xs, readAll prog.length r.code = .done xs ∧ xs.map decode = prog.map fun p => some p.1 := by
  obtain ⟨code, h1, h2⟩ := stream_decode_partial prog hwf hk
  obtain ⟨xs, h3, h4⟩ := h2 prog.length (Nat.le_refl _)
  have hc : code ≠ [] := by
    intro h
    subst h
    have hx : xs = [] := by
      cases hl : prog.length with
      | zero => exact absurd (List.length_eq_zero_iff.mp hl) hp
      | succ n =>
        rw [hl, readAll] at h3
        cases h3
        rfl
    subst hx
    have := congrArg List.length h4
    simp only [List.map_nil, List.length_nil, List.length_map] at this
    exact hp (List.length_eq_zero_iff.mp this.symm)
  refine ⟨code, h1, _, body_round_trip_partial vs ts bs code hc hv ht hb hr, rfl, ?_, rfl, xs, h3, h4⟩
  simp only [List.map_map]
  rfl

/-- The variables are stored by their numbers: when the numbers are those from 0 upwards, each once - in
whatever order the compiler met the variables - the variable read at place `k` is the one numbered `k`. -/
theorem variables_by_number (vs sorted : List Var) (h : Sorts vs sorted)
    (hn : (vs.map (·.identity.toNat)).Perm (List.range vs.length)) (k : Nat) (v : Var) (hv : v ∈ vs)
    (hk : v.identity.toNat = k) : sorted[k]? = some v := by
  obtain ⟨hp, hs⟩ := h
  have hperm : (sorted.map (·.identity.toNat)).Perm (List.range vs.length) := (hp.map _).trans hn
  have hs' : (sorted.map (·.identity.toNat)).Pairwise (· ≤ ·) := by
    rw [List.pairwise_map]
    apply hs.imp
    intro a b hab
    rw [BitVec.lt_def] at hab
    omega
  have hr : (List.range vs.length).Pairwise (· ≤ ·) := (List.pairwise_lt_range).imp (fun h => Nat.le_of_lt h)
  have heq : sorted.map (·.identity.toNat) = List.range vs.length :=
    List.Perm.eq_of_pairwise (fun a b _ _ h1 h2 => Nat.le_antisymm h1 h2) hs' hr hperm
  have hvs : v ∈ sorted := hp.mem_iff.mpr hv
  obtain ⟨j, hj⟩ := List.getElem?_of_mem hvs
  have h1 : (sorted.map (·.identity.toNat))[j]? = some v.identity.toNat := by
    rw [List.getElem?_map, hj]; rfl
  rw [heq] at h1
  have hjl : j < vs.length := by
    have := (List.getElem?_eq_some_iff.mp h1).1
    simpa using this
  rw [List.getElem?_range hjl] at h1
  cases h1
  rw [← hk]
  exact hj

/-- **C44 refuted** with 65536 variables: none is read. -/
theorem variables_refuted (v : Var) (ts : List Table) (bs : List Block) (code : List Byte) (hc : code ≠ []) (r : Read)
    (h : readMethod (writeMethod (List.replicate 65536 v) ts bs code) = .ok r) : r.vars = [] := by
  rw [writeMethod, if_neg hc] at h
  have hw : writeVars (List.replicate 65536 v) = stub 1 0 ++ (List.replicate 65536 v).flatMap writeVar := by
    rw [writeVars, List.length_replicate, if_neg (by omega)]
    rfl
  rw [hw, readMethod] at h
  simp only [List.append_assoc, readPart, readStub_stub, if_pos] at h
  have h0 : ∀ rest : List Byte, repeatRead readVar (BitVec.toNat (0 : BitVec 16)) rest = .ok ([], rest) := fun _ => rfl
  simp only [h0] at h
  split at h
  · cases h
  · split at h
    · cases h
    · split at h
      · cases h
      · cases h; rfl
      · cases h; rfl

/-- **C44 refuted** for a switch table with 32768 rows or more: the virtual machine takes the number of
rows, which is stored without a sign, with one. -/
theorem row_count_refuted (t : Table) (h1 : 32768 ≤ t.rows.length) (h2 : t.rows.length < 65536) (rest : List Byte) :
    ∃ e, readTable (writeTable t ++ rest) = .ok (e, rest) ∧ e.rowCount.toInt < 0 := by
  refine ⟨_, readTable_write t h2 rest, ?_⟩
  simp only
  rw [BitVec.toInt_eq_toNat_cond, BitVec.toNat_ofNat, Nat.mod_eq_of_lt h2]
  split <;> omega

/-- With fewer, the number of rows is right. -/
theorem row_count_partial (t : Table) (h : t.rows.length < 32768) (rest : List Byte) :
    ∃ e, readTable (writeTable t ++ rest) = .ok (e, rest) ∧ e.rowCount.toInt = t.rows.length := by
  refine ⟨_, readTable_write t (by omega) rest, ?_⟩
  simp only
  rw [BitVec.toInt_eq_toNat_cond, BitVec.toNat_ofNat, Nat.mod_eq_of_lt (by omega)]
  split <;> omega

/-- A method with two variables, a switch table, a block and three bytes of code. -/
example : readMethod (writeMethod [⟨0, 0x01000002, 0⟩, ⟨1, 0x02000007, 1⟩] [⟨5, [⟨1, 2⟩, ⟨7, 0xFFFFFFF0⟩]⟩]
      [⟨1, 0, 2, 3, 0⟩] [1, 2, 3]) =
    .ok ⟨[(0x01000002, 0), (0x02000007, 1)], [⟨2, 5, [⟨1, 2⟩, ⟨7, 0xFFFFFFF0⟩]⟩], [⟨1, 0, 2, 3, 0⟩], [1, 2, 3]⟩ := by
  rfl

example : Sorts [⟨1, 7, 0⟩, ⟨0, 8, 0⟩] [⟨0, 8, 0⟩, ⟨1, 7, 0⟩] := ⟨List.Perm.swap _ _ _, by simp⟩

end Verif.Body.Props
