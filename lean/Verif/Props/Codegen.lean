import Verif.Proof.CodegenMain
import Verif.Proof.CodegenFresh
import Verif.Proof.CodegenClosed
import Verif.Props.Stmt

/-!
# C27, C28, C69: jumps, switches and the translation of statements

`commit` places labels and jumps, `compileMethod` translates the statements of a method, `steps`
executes the commands; `Stmts.run` (in `Verif.Spec.Stmt`) says what the statements mean.
-/

namespace Verif.Stmt.Props

variable {A S : Type}

/-! ## A machine with a variable, for the examples -/

/-- Operations on the variable `x` and the evaluation stack. -/
inductive Op where
  | load | const (k : BitVec 32) | add (k : BitVec 32) | less (k : BitVec 32) | boom
  deriving DecidableEq, Repr

/-- The variable and the stack. -/
abbrev Mem := BitVec 32 × List (BitVec 32)

def counter : Interp Op Mem where
  act
    | .load, (x, st) => .ok (x, x :: st)
    | .const k, (x, st) => .ok (x, k :: st)
    | .add k, (x, st) => .ok (x + k, st)
    | .less k, (x, st) => .ok (x, (if x.slt k then 1#32 else 0#32) :: st)
    | .boom, s => .error s
  popBool
    | (x, []) => (false, (x, []))
    | (x, b :: st) => (b != 0#32, (x, st))
  popInt
    | (x, []) => (0#32, (x, []))
    | (x, b :: st) => (b, (x, st))
  pushBool b := fun (x, st) => (x, (if b then 1#32 else 0#32) :: st)
  accepts _ _ := true
  pop_push b s := by cases b <;> rfl
  accepts_all _ := rfl

/-- A folder that knows constants. -/
def knowing : Folder Op where
  bool
    | [.const k] => some (k != 0#32)
    | _ => none
  int
    | [.const k] => some k
    | _ => none

theorem knowing_agrees : Agrees knowing counter := by
  constructor
  · intro e b h s
    obtain ⟨x, st⟩ := s
    match e, h with
    | [.const k], h => cases h; exact ⟨_, rfl, rfl⟩
  · intro e v h s
    obtain ⟨x, st⟩ := s
    match e, h with
    | [.const k], h => cases h; exact ⟨_, rfl, rfl⟩

/-- `for (; x < 100; x += 1) { switch (x) { case 3: x += 10; break; case 20: case 14: continue;
default: if (x < 30) break; return; } x += 1; }`. -/
def looping : Stmts Op :=
  .cons (.for_ [] (some [.less 100#32]) (some [.add 1#32])
    (.block
      (.cons (.switch [.load]
        (.cons [some 3#32] (.cons (.expr [.add 10#32]) (.cons .brk .nil))
        (.cons [some 20#32, some 14#32] (.cons .cont .nil)
        (.cons [none] (.cons (.if_ (some [.less 30#32]) .brk .empty) (.cons (.ret none) .nil)) .nil))))
      (.cons (.expr [.add 1#32]) .nil)))) .nil

/-- `while (true) { x += 1; if (x < 5) continue; do { x += 7; } while (x < 50)  throw; }`. -/
def throwing : Stmts Op :=
  .cons (.while_ (some [.const 1#32]) (.block
    (.cons (.expr [.add 1#32])
    (.cons (.if_ (some [.less 5#32]) .cont .empty)
    (.cons (.doWhile (some [.less 50#32]) (.expr [.add 7#32]))
    (.cons (.thr none) .nil)))))) .nil

def plainOpts : Opts := ⟨false, false⟩
def allOpts : Opts := ⟨true, true⟩

/-! ## C27: jumps land on their labels -/

theorem size_real (xs : List (X A)) : size xs = (real xs).length := by
  rw [size, real, List.countP_eq_length_filter]

/-- **C27**.  Labels produce no command, everything else produces one. -/
theorem labels_vanish (xs : List (X A)) (cmds : List (Cmd A)) (h : commit xs = .ok cmds) :
    cmds.length = (real xs).length := by
  rw [placeAll_length _ _ _ _ h, size_real]

/-- **C27**.  In code that was accepted, with no label placed twice, a jump that is taken leads to
the first real instruction behind its label. -/
theorem jumps_land (I : Interp A S) (xs : List (X A)) (cmds : List (Cmd A)) (h : commit xs = .ok cmds)
    (hn : (labels xs).Nodup) (hl : xs.length < 2 ^ 31) (m : JmpModel) (l : Nat)
    (pre post pre' post' : List (X A)) (hj : xs = pre ++ .jmp m l :: post)
    (hp : xs = pre' ++ .label l :: post') (s : S) :
    next I.machine cmds (.at_ (real pre).length s) = match m with
      | .always => .at_ (real pre').length s
      | .ifTrue => .at_ (if (I.popBool s).1 then (real pre').length else (real pre).length + 1)
          (I.popBool s).2
      | .ifFalse => .at_ (if (I.popBool s).1 then (real pre).length + 1 else (real pre').length)
          (I.popBool s).2 := by
  have P : Placed xs cmds := ⟨h, hn, hl⟩
  rw [← size_real, ← size_real]
  have hs : Seg xs (size pre') [.label l] := ⟨pre', post', by rw [hp]; simp, rfl⟩
  have hs' : Seg xs (size pre) [.jmp m l] := ⟨pre, post, by rw [hj]; simp, rfl⟩
  have hi := seg_label hn hs
  obtain ⟨t, h1, h2⟩ := P.jmp hs'
  rw [hi] at h1
  injection h1 with h1
  subst h1
  cases m with
  | always => simp [next, h2, exec, jumpTo_eq]
  | ifTrue =>
    simp only [next, h2, exec, jumpTo_eq, Interp.machine]
    split <;> rfl
  | ifFalse =>
    simp only [next, h2, exec, jumpTo_eq, Interp.machine]
    split <;> rfl

theorem labelIdx_some (xs : List (X A)) (i l : Nat) (h : l ∈ labels xs) : ∃ t, labelIdx xs i l = some t := by
  induction xs generalizing i with
  | nil => cases h
  | cons x xs ih =>
    by_cases hm : l ∈ labels xs
    · cases x with
      | label l' =>
        obtain ⟨t, ht⟩ := ih i hm
        exact ⟨t, by rw [labelIdx, ht, Option.some_or]⟩
      | _ => exact ih (i + 1) hm
    · cases x with
      | label l' =>
        rw [labels_label, List.mem_cons] at h
        have : l' = l := (h.resolve_right hm).symm
        exact ⟨i, by rw [labelIdx, labelIdx_none _ _ _ hm, if_pos this]; rfl⟩
      | _ => exact absurd h hm

theorem placeRows_found {find : Nat → Option Nat} {i : Nat} : ∀ {rows : List (BitVec 32 × Nat)} {rs},
    placeRows find i rows = .ok rs → ∀ r ∈ rows, ∃ t, find r.2 = some t := by
  intro rows
  induction rows with
  | nil => intro rs _ r hr; cases hr
  | cons r0 rows ih =>
    intro rs h r hr
    simp only [placeRows] at h
    split at h
    · cases h
    · rename_i t ht
      split at h
      · cases h
      · rename_i rs' hrs
        rw [List.mem_cons] at hr
        rcases hr with rfl | hr
        · simp only [found] at ht
          split at ht
          · exact ⟨_, by assumption⟩
          · cases ht
        · exact ih hrs r hr

/-- **C27**.  A jump, or a row of a switch, to a label that was never placed is reported. -/
theorem unplaced_reported (xs : List (X A)) (l : Nat) (ht : l ∈ targets xs) (hl : l ∉ labels xs) :
    ∃ e, commit xs = .error e := by
  cases h : commit xs with
  | error e => exact ⟨e, rfl⟩
  | ok cmds =>
    exfalso
    rw [targets, List.mem_flatMap] at ht
    obtain ⟨x, hx, hlx⟩ := ht
    obtain ⟨pre, post, hp⟩ := List.append_of_mem hx
    have hs : Seg xs (size pre) [x] := ⟨pre, post, by rw [hp]; simp, rfl⟩
    have hnone := labelIdx_none xs 0 l hl
    cases x with
    | jmp m l' =>
      simp only [List.mem_singleton] at hlx
      subst hlx
      obtain ⟨c, h1, _⟩ := fetch h hs rfl
      simp [place, found, hnone] at h1
    | switch rows d =>
      obtain ⟨c, h1, _⟩ := fetch h hs rfl
      simp only [place] at h1
      split at h1
      · cases h1
      · rename_i rs hrs
        simp only [List.mem_cons] at hlx
        rcases hlx with rfl | hlx
        · simp [found, hnone] at h1
        · obtain ⟨r, hr, rfl⟩ := List.mem_map.mp hlx
          obtain ⟨t, ht⟩ := placeRows_found hrs r hr
          rw [hnone] at ht
          cases ht
    | _ => simp at hlx

theorem placeRows_error {find : Nat → Option Nat} {i : Nat} : ∀ {rows : List (BitVec 32 × Nat)} {e},
    placeRows find i rows = .error e → ∃ r ∈ rows, find r.2 = none := by
  intro rows
  induction rows with
  | nil => intro e h; cases h
  | cons r0 rows ih =>
    intro e h
    simp only [placeRows] at h
    split at h
    · rename_i ht
      refine ⟨r0, by simp, ?_⟩
      simp only [found] at ht
      split at ht
      · cases ht
      · assumption
    · split at h
      · rename_i hrs
        obtain ⟨r, hr, h'⟩ := ih hrs
        exact ⟨r, by simp [hr], h'⟩
      · cases h

theorem stored_not_found {v : BitVec 32} : stored v ≠ .error .labelNotFound := by
  rw [stored]; split <;> simp

theorem placeAll_not_found (find : Nat → Option Nat) (xs : List (X A)) (i : Nat)
    (h : placeAll find xs i = .error .labelNotFound) : ∃ l ∈ targets xs, find l = none := by
  induction xs generalizing i with
  | nil => cases h
  | cons x xs ih =>
    have hrec : (∃ l ∈ targets xs, find l = none) → ∃ l ∈ targets (x :: xs), find l = none := by
      rintro ⟨l, hl, h⟩
      refine ⟨l, ?_, h⟩
      rw [show x :: xs = [x] ++ xs from rfl, targets_append]
      exact List.mem_append_right _ hl
    rw [placeAll] at h
    split at h
    · exact hrec (ih _ h)
    · split at h
      · rename_i e hp
        injection h with h
        subst h
        cases x with
        | jmp m l =>
          simp only [place] at hp
          split at hp
          · rename_i hf
            simp only [found] at hf
            split at hf
            · cases hf
            · exact ⟨l, by simp, by assumption⟩
          · split at hp
            · rename_i hst
              injection hp with hp
              subst hp
              exact absurd hst stored_not_found
            · cases hp
        | switch rows d =>
          simp only [place] at hp
          split at hp
          · rename_i hr
            obtain ⟨r, hr, h'⟩ := placeRows_error hr
            refine ⟨r.2, ?_, h'⟩
            rw [targets_switch]
            exact List.mem_append_left _ (List.mem_cons_of_mem _ (List.mem_map.mpr ⟨r, hr, rfl⟩))
          · split at hp
            · rename_i hf
              simp only [found] at hf
              split at hf
              · cases hf
              · exact ⟨d, by simp, by assumption⟩
            · cases hp
        | _ => cases hp
      · split at h
        · rename_i e hp
          injection h with h
          subst h
          exact hrec (ih _ hp)
        · cases h

/-- **C27**.  What the compiler generates for a method places no label twice and places every label
it jumps to; so a label that is not found is never the reason why a method is rejected. -/
theorem compiled_labels (o : Opts) (F : Folder A) (body : Stmts A) :
    (labels (compileAll o F false body 0).1).Nodup ∧
    (∀ l ∈ targets (compileAll o F false body 0).1, l ∈ labels (compileAll o F false body 0).1) ∧
    compileMethod o F body ≠ .error .labelNotFound := by
  refine ⟨(freshAll o F body false 0).2.1, closedAll o F body false 0, ?_⟩
  intro h
  obtain ⟨l, hl, hn⟩ := placeAll_not_found _ _ _ h
  obtain ⟨t, ht⟩ := labelIdx_some _ 0 l (closedAll o F body false 0 l hl)
  rw [hn] at ht
  cases ht

/-- Jumps forward and backward over labels, in code that is accepted. -/
example : (commit ([.jmp .always 1, .label 2, .act .load, .ret, .label 1, .label 3, .act .load,
    .jmp .ifTrue 2, .jmp .always 4, .label 4] : List (X Op))).toOption.isSome = true := by decide
example : (match commit ([.label 2, .act .load, .jmp .ifTrue 3] : List (X Op)) with
    | .error .labelNotFound => true | _ => false) = true := by decide
example : (targets (compileAll allOpts knowing false looping 0).1).length = 12 := by decide +kernel

/-! ## C28: switches -/

/-- **C28**.  The binary search over the table that is written finds exactly the row of the value,
for all rows with different values, up to 65535 of them. -/
theorem switch_rows_partial (rows : List (BitVec 32 × Nat)) (hd : (rows.map (·.1)).Nodup)
    (hl : rows.length < 65536) (v : BitVec 32) (l : Nat) :
    (search (table rows) v = some l ↔ (v, l) ∈ rows) ∧
    (search (table rows) v = none ↔ ∀ l, (v, l) ∉ rows) := by
  obtain ⟨hs, hm⟩ := table_sorted rows hd hl
  obtain ⟨h1, h2⟩ := search_mem (table rows) v hs
  simp only [hm] at h1 h2
  have key : (∃ l, (v, l) ∈ rows) ∨ ∀ l, (v, l) ∉ rows := by
    by_cases h : ∃ l, (v, l) ∈ rows
    · exact Or.inl h
    · exact Or.inr (fun l hl => h ⟨l, hl⟩)
  constructor
  · constructor
    · intro h
      rcases key with ⟨l', hl'⟩ | h'
      · rw [h1 l' hl'] at h
        injection h with h
        rw [← h]; exact hl'
      · rw [h2 h'] at h; cases h
    · exact h1 l
  · constructor
    · intro h l hl
      rw [h1 l hl] at h; cases h
    · exact h2

/-- **C28**.  A switch instruction in code that was accepted leads to the first real instruction
behind the label of the row of the value, or behind the default label if no row has it. -/
theorem switch_lands_partial (I : Interp A S) (xs : List (X A)) (cmds : List (Cmd A))
    (h : commit xs = .ok cmds) (hn : (labels xs).Nodup) (hl : xs.length < 2 ^ 31)
    (rows : List (BitVec 32 × Nat)) (hd : (rows.map (·.1)).Nodup) (hr : rows.length < 65536)
    (d : Nat) (pre post pre' post' : List (X A)) (l : Nat)
    (hj : xs = pre ++ .switch (table rows) d :: post) (hp : xs = pre' ++ .label l :: post') (s : S)
    (hv : ((I.popInt s).1, l) ∈ rows ∨ (∀ l', ((I.popInt s).1, l') ∉ rows) ∧ l = d) :
    next I.machine cmds (.at_ (real pre).length s) = .at_ (real pre').length (I.popInt s).2 := by
  have P : Placed xs cmds := ⟨h, hn, hl⟩
  rw [← size_real, ← size_real]
  have hs : Seg xs (size pre') [.label l] := ⟨pre', post', by rw [hp]; simp, rfl⟩
  have hs' : Seg xs (size pre) [.switch (table rows) d] := ⟨pre, post, by rw [hj]; simp, rfl⟩
  have hi := seg_label hn hs
  obtain ⟨hso, hm⟩ := table_sorted rows hd hr
  obtain ⟨c, h1, h2⟩ := fetch P.ok hs' rfl
  simp only [place] at h1
  split at h1
  · cases h1
  · rename_i rs hrs
    split at h1
    · cases h1
    · rename_i t ht
      injection h1 with h1; subst h1
      obtain ⟨k1, k2⟩ := placeRows_ok hrs
      have hsr := sorted_of_keys k1 hso
      obtain ⟨q1, q2⟩ := search_mem rs (I.popInt s).1 hsr
      rcases hv with hv | ⟨hno, rfl⟩
      · obtain ⟨t', h3, h4⟩ := k2 _ _ ((hm _).mpr hv)
        rw [hi] at h3
        injection h3 with h3
        subst h3
        simp only [next, h2, exec, Interp.machine, q1 _ h4, Option.getD_some]
        rw [distance_toInt _ _ (P.seg_lt hs') (P.idx_lt hi), jumpTo_eq]
      · have hno' : ∀ a, ((I.popInt s).1, a) ∉ rs := by
          intro a ha
          have : (I.popInt s).1 ∈ rs.map (·.1) := List.mem_map.mpr ⟨_, ha, rfl⟩
          rw [k1, List.mem_map] at this
          obtain ⟨⟨v, l⟩, hm', hv⟩ := this
          simp only at hv
          subst hv
          exact hno l ((hm _).mp hm')
        have hd' : t = size pre' := by
          simp only [found, hi] at ht
          injection ht with ht
          exact ht.symm
        subst hd'
        simp only [next, h2, exec, Interp.machine, q2 hno', Option.getD_none]
        rw [distance_toInt _ _ (P.seg_lt hs') (P.idx_lt hi), jumpTo_eq]

theorem compileCases_constants (o : Opts) (F : Folder A) : ∀ (cs : Cases A) (n : Nat),
    (compileCases o F cs n).rows.map (·.1) = constants cs
  | .nil, n => by rw [compileCases, constants]; rfl
  | .cons ls body rest, n => by
    rw [compileCases, constants]
    simp only [List.map_append, compileCases_constants o F rest]
    congr 1
    rw [rowsOf]
    induction ls with
    | nil => rfl
    | cons v ls ih => cases v <;> simp [ih]

theorem constants_length : ∀ (cs : Cases A), (constants cs).length = rowCount cs
  | .nil => rfl
  | .cons ls body rest => by
    rw [constants, rowCount, List.length_append, constants_length rest]
    congr 1
    induction ls with
    | nil => rfl
    | cons v ls ih => cases v <;> simp [ih]

theorem commit_fail (xs : List (X A)) (h : .fail ∈ xs) : ∃ e, commit xs = .error e := by
  cases hc : commit xs with
  | error e => exact ⟨e, rfl⟩
  | ok cmds =>
    exfalso
    obtain ⟨pre, post, hp⟩ := List.append_of_mem h
    obtain ⟨c, h1, _⟩ := fetch hc (i := size pre) (x := .fail) ⟨pre, post, by rw [hp]; simp, rfl⟩ rfl
    cases h1

/-- **C28**.  A method with a switch that names a constant twice is rejected. -/
theorem duplicate_rejected (o : Opts) (F : Folder A) (e : List A) (cases : Cases A) (rest : Stmts A)
    (h : ¬ (constants cases).Nodup) : ∃ err, compileMethod o F (.cons (.switch e cases) rest) = .error err := by
  have hr : 2 ≤ rowCount cases := by
    rw [← constants_length]
    match hc : constants cases with
    | [] => rw [hc] at h; simp at h
    | [a] => rw [hc] at h; simp at h
    | _ :: _ :: _ => simp
  apply commit_fail
  rw [compileAll]
  simp only [Bool.false_eq_true, false_and, ↓reduceIte]
  apply List.mem_append_left
  rw [compile.eq_def]
  dsimp only
  rw [if_neg (by omega), if_neg (by omega)]
  rw [if_neg (by rw [compileCases_constants]; exact fun h' => h h'.2)]
  simp

example : ¬ (constants (.cons [some 1#32] .nil (.cons [some 2#32, none, some 1#32] .nil .nil)
    : Cases Op)).Nodup := by decide

/-- Rows out of order, negative values and the extremes. -/
example : ([(7#32, 1), (0xFFFFFFFF#32, 2), (0x7FFFFFFF#32, 3), (0x80000000#32, 2)].map (·.1)).Nodup := by
  decide

/-- **C28 refuted** for 65536 rows: the number of rows is kept in 16 bits, no row is written and
every value goes to the default case. -/
theorem switch_rows_refuted (rows : List (BitVec 32 × Nat)) (h : rows.length = 65536) (v : BitVec 32) :
    search (table rows) v = none := by
  rw [table, h]
  simp only [Nat.mod_self, List.take_zero, sortRows, List.foldr_nil]
  rw [search]
  rfl

/-! ## C69: the commands of a method do what its statements do -/

theorem resolve_id (xs : List (X A)) : resolve none none xs = xs := by
  induction xs with
  | nil => rfl
  | cons x xs ih =>
    rw [resolve_cons, ih]
    cases x with
    | point p => cases p <;> rfl
    | _ => rfl

theorem final_unique {M : Machine A S} {cmds : List (Cmd A)} {a c c' : Conf S}
    (hc : ∀ pc s, c ≠ .at_ pc s) (hc' : ∀ pc s, c' ≠ .at_ pc s)
    (h : Reach M cmds a c) (h' : Reach M cmds a c') : c = c' := by
  obtain ⟨n, h⟩ := h
  obtain ⟨m, h'⟩ := h'
  have h1 := steps_add (M := M) (cmds := cmds) n m a
  have h2 := steps_add (M := M) (cmds := cmds) m n a
  rw [h, steps_stop _ hc] at h1
  rw [h', steps_stop _ hc'] at h2
  rw [← h1, ← h2, Nat.add_comm]

theorem end_lost {M : Machine A S} {cmds : List (Cmd A)} (s : S) :
    next M cmds (.at_ cmds.length s) = .lost := by
  simp [next]

theorem not_live {M : Machine A S} {cmds : List (Cmd A)} {a c : Conf S}
    (hc : ∀ pc s, c ≠ .at_ pc s) (h : Reach M cmds a c) : ∃ n, ¬ Live M cmds n a := by
  obtain ⟨n, h⟩ := h
  refine ⟨n, ?_⟩
  rintro ⟨pc, s, h'⟩
  rw [h] at h'
  exact hc pc s h'

theorem to_lost {M : Machine A S} {cmds : List (Cmd A)} {a : Conf S} {s : S}
    (h : Reach M cmds a (.at_ cmds.length s)) : Reach M cmds a .lost :=
  h.trans (Reach.one (end_lost s)).reach

theorem end_unique {M : Machine A S} {cmds : List (Cmd A)} {a : Conf S} {s s' : S}
    (h : Reach M cmds a (.at_ cmds.length s)) (h' : Reach M cmds a (.at_ cmds.length s')) : s = s' := by
  have key : ∀ (n m : Nat) (s s' : S), n < m → steps M cmds n a = .at_ cmds.length s →
      steps M cmds m a = .at_ cmds.length s' → False := by
    intro n m s s' hlt h h'
    have h1 := steps_add (M := M) (cmds := cmds) n (m - n - 1 + 1) a
    rw [h, show n + (m - n - 1 + 1) = m by omega, h'] at h1
    rw [steps, end_lost, steps_stop .lost (by intro pc s h; cases h)] at h1
    cases h1
  obtain ⟨n, h⟩ := h
  obtain ⟨m, h'⟩ := h'
  rcases Nat.lt_trichotomy n m with hlt | rfl | hlt
  · exact (key _ _ _ _ hlt h h').elim
  · rw [h] at h'
    injection h'
  · exact (key _ _ _ _ hlt h' h).elim

/-- What one run of the statements says about the commands. -/
theorem method_run {o : Opts} {F : Folder A} {I : Interp A S} (hF : Agrees F I) (body : Stmts A)
    (cmds : List (Cmd A)) (h : compileMethod o F body = .ok cmds) (hp : plains o F body = true)
    (hl : (compileAll o F false body 0).1.length < 2 ^ 31) (n : Nat) (s : S) :
    match body.run I n s with
    | none => Live I.machine cmds n (.at_ 0 s)
    | some (.pass, s') => Reach I.machine cmds (.at_ 0 s) (.at_ cmds.length s')
    | some (.ret, s') => Reach I.machine cmds (.at_ 0 s) (.returned s')
    | some (.thr, s') => Reach I.machine cmds (.at_ 0 s) (.thrown s')
    | _ => False := by
  have P : Placed (compileAll o F false body 0).1 cmds := ⟨h, (freshAll o F body false 0).2.1, hl⟩
  have hf := followAll (n := n) P hF body false 0 0 none none hp (by simp)
    ⟨[], [], by rw [resolve_id]; simp, rfl⟩ s
  have hlen : cmds.length = 0 + size (compileAll o F false body 0).1 := by
    rw [placeAll_length _ _ _ _ h, Nat.zero_add]
  rw [← hlen] at hf
  generalize body.run I n s = r at hf
  match r with
  | none => exact hf
  | some (.pass, s') => exact hf
  | some (.ret, s') => exact hf
  | some (.thr, s') => exact hf
  | some (.brk, s') => obtain ⟨_, _, hb, _⟩ := hf; cases hb
  | some (.cont, s') => obtain ⟨_, _, hb, _⟩ := hf; cases hb
  | some (.goto_ _, _) => exact hf

/-- **C69** (partial: `plain` statements, methods of less than 2³¹ instructions).  The commands of a
method that was accepted do what its statements do: they return, throw or run off their end in the
same state, and run for ever exactly when the statements do.  A `break` or `continue` outside of
loops is never executed. -/
theorem method_follows_partial {o : Opts} {F : Folder A} {I : Interp A S} (hF : Agrees F I)
    (body : Stmts A) (cmds : List (Cmd A)) (h : compileMethod o F body = .ok cmds)
    (hp : plains o F body = true) (hl : (compileAll o F false body 0).1.length < 2 ^ 31) (s s' : S) :
    ((∃ n, body.run I n s = some (.ret, s')) ↔ Reach I.machine cmds (.at_ 0 s) (.returned s')) ∧
    ((∃ n, body.run I n s = some (.thr, s')) ↔ Reach I.machine cmds (.at_ 0 s) (.thrown s')) ∧
    ((∃ n, body.run I n s = some (.pass, s')) ↔
      Reach I.machine cmds (.at_ 0 s) (.at_ cmds.length s')) ∧
    ((∀ n, body.run I n s = none) ↔ ∀ n, Live I.machine cmds n (.at_ 0 s)) ∧
    (∀ n, body.run I n s ≠ some (.brk, s') ∧ body.run I n s ≠ some (.cont, s')) := by
  have key := fun n => method_run hF body cmds h hp hl n s
  have nlost : ∀ (pc : Nat) (s0 : S), (.lost : Conf S) ≠ .at_ pc s0 := by intro _ _ h; cases h
  have nret : ∀ (s1 : S) (pc : Nat) (s0 : S), (.returned s1 : Conf S) ≠ .at_ pc s0 := by
    intro _ _ _ h; cases h
  have nthr : ∀ (s1 : S) (pc : Nat) (s0 : S), (.thrown s1 : Conf S) ≠ .at_ pc s0 := by
    intro _ _ _ h; cases h
  refine ⟨⟨?_, ?_⟩, ⟨?_, ?_⟩, ⟨?_, ?_⟩, ⟨?_, ?_⟩, ?_⟩
  · rintro ⟨n, hn⟩
    have := key n
    rw [hn] at this
    exact this
  · intro hr
    obtain ⟨n, hn⟩ := not_live (nret s') hr
    refine ⟨n, ?_⟩
    have hk := key n
    split at hk
    · exact absurd hk hn
    · cases final_unique nlost (nret s') (to_lost hk) hr
    · rename_i s1 heq
      cases final_unique (nret s1) (nret s') hk hr
      exact heq
    · rename_i s1 heq
      cases final_unique (nthr s1) (nret s') hk hr
    · exact hk.elim
  · rintro ⟨n, hn⟩
    have := key n
    rw [hn] at this
    exact this
  · intro hr
    obtain ⟨n, hn⟩ := not_live (nthr s') hr
    refine ⟨n, ?_⟩
    have hk := key n
    split at hk
    · exact absurd hk hn
    · cases final_unique nlost (nthr s') (to_lost hk) hr
    · rename_i s1 heq
      cases final_unique (nret s1) (nthr s') hk hr
    · rename_i s1 heq
      cases final_unique (nthr s1) (nthr s') hk hr
      exact heq
    · exact hk.elim
  · rintro ⟨n, hn⟩
    have := key n
    rw [hn] at this
    exact this
  · intro hr
    obtain ⟨n, hn⟩ := not_live nlost (to_lost hr)
    refine ⟨n, ?_⟩
    have hk := key n
    split at hk
    · exact absurd hk hn
    · rename_i s1 heq
      rw [heq, end_unique hk hr]
    · rename_i s1 heq
      cases final_unique (nret s1) nlost hk (to_lost hr)
    · rename_i s1 heq
      cases final_unique (nthr s1) nlost hk (to_lost hr)
    · exact hk.elim
  · intro hn n
    have := key n
    rw [hn n] at this
    exact this
  · intro hlive n
    have hk := key n
    split at hk
    · assumption
    · obtain ⟨m, hm⟩ := not_live nlost (to_lost hk); exact absurd (hlive m) hm
    · obtain ⟨m, hm⟩ := not_live (nret _) hk; exact absurd (hlive m) hm
    · obtain ⟨m, hm⟩ := not_live (nthr _) hk; exact absurd (hlive m) hm
    · exact hk.elim
  · intro n
    constructor
    · intro hn
      have := key n
      rw [hn] at this
      exact this
    · intro hn
      have := key n
      rw [hn] at this
      exact this

/-- The hypotheses hold for the loops above, with all options and with none. -/
example : (compileMethod allOpts knowing looping).toOption.isSome = true ∧
    plains allOpts knowing looping = true ∧
    (compileAll allOpts knowing false looping 0).1.length < 2 ^ 31 := by decide +kernel
example : (compileMethod plainOpts knowing looping).toOption.isSome = true ∧
    plains plainOpts knowing looping = true := by decide +kernel
example : (compileMethod allOpts knowing throwing).toOption.isSome = true ∧
    plains allOpts knowing throwing = true := by decide +kernel
/-- The runs end by returning and by throwing. -/
example : looping.run counter 100 (0#32, []) = some (.ret, (31#32, [])) := by decide +kernel
example : throwing.run counter 100 (0#32, []) = some (.thr, (54#32, [])) := by decide +kernel

theorem plains_snoc (o : Opts) (F : Folder A) (t : Stmt A) : ∀ (body : Stmts A),
    plains o F (body.snoc t) = (plains o F body && plain o F t)
  | .nil => by rw [Stmts.snoc, plains, plains, plains, Bool.and_true, Bool.true_and]
  | .cons u rest => by rw [Stmts.snoc, plains, plains, plains_snoc o F t rest, Bool.and_assoc]

/-- **C69** (partial: `plain` and `tidy` statements).  A method that was accepted never runs off the
end of its commands and never jumps out of them: whatever the state, it returns, throws or goes on. -/
theorem never_lost_partial {o : Opts} {F : Folder A} {I : Interp A S} (hF : Agrees F I) (isVoid : Bool)
    (body body' : Stmts A) (cmds : List (Cmd A)) (ht : tidys F body = true)
    (ha : postAnalysis F isVoid body = some body') (h : compileMethod o F body' = .ok cmds)
    (hp : plains o F body = true) (hl : (compileAll o F false body' 0).1.length < 2 ^ 31)
    (n : Nat) (s : S) : steps I.machine cmds n (.at_ 0 s) ≠ .lost := by
  intro hlost
  have hp' : plains o F body' = true := by
    rw [postAnalysis] at ha
    split at ha
    · split at ha
      · injection ha with ha
        rw [← ha, plains_snoc, hp, plain] <;> simp
      · cases ha
    · injection ha with ha
      rw [← ha]; exact hp
  have nlost : ∀ (pc : Nat) (s0 : S), (.lost : Conf S) ≠ .at_ pc s0 := by intro _ _ h; cases h
  have hk := method_run hF body' cmds h hp' hl n s
  have he := (method_end_partial hF isVoid body body' ht ha n s).1
  split at hk
  · obtain ⟨pc, s1, h1⟩ := hk
    rw [hlost] at h1
    cases h1
  · rename_i s1 heq
    exact he s1 heq
  · cases final_unique (by intro _ _ h; cases h) nlost hk ⟨n, hlost⟩
  · cases final_unique (by intro _ _ h; cases h) nlost hk ⟨n, hlost⟩
  · exact hk

example : tidys knowing throwing = true ∧ (postAnalysis knowing false throwing).isSome = true := by
  decide +kernel
example : tidys knowing looping = true ∧ (postAnalysis knowing true looping).isSome = true := by
  decide +kernel

/-! ## What does not hold -/

/-- `do { continue; } while (c)` where `c` is false. -/
def doContinue : Stmts Bool := .cons (.doWhile (some [false]) .cont) .nil

/-- **C69 refuted** for `continue` in a loop that tests last: it goes back to the start of the body
without testing the condition; the statement ends, the commands run for ever. -/
theorem continue_refuted : ∃ cmds, compileMethod plainOpts blind doContinue = .ok cmds ∧
    doContinue.run demo 1 [] = some (.pass, []) ∧ ∀ n, Live demo.machine cmds n (.at_ 0 []) := by
  refine ⟨_, rfl, rfl, ?_⟩
  intro n
  refine ⟨0, [], ?_⟩
  induction n with
  | zero => rfl
  | succ n ih => exact ih

/-- `switch (c) { default: push false; break; case 1: push true; }` for a `c` that is 1. -/
def switchOrder : Stmts Bool :=
  .cons (.switch [true] (.cons [none] (.cons (.expr [false]) (.cons .brk .nil))
    (.cons [some 1#32] (.cons (.expr [true]) .nil) .nil))) .nil

/-- **C69 refuted** for a switch with one constant that is turned into an `if`: the constant case
falls into the default case, wherever that stands. -/
theorem switch_as_if_refuted : ∃ cmds, compileMethod ⟨false, true⟩ blind switchOrder = .ok cmds ∧
    switchOrder.run demo 1 [] = some (.pass, [true]) ∧
    Reach demo.machine cmds (.at_ 0 []) (.at_ cmds.length [false, true]) := by
  exact ⟨_, rfl, rfl, 6, rfl⟩

/-- `switch (1) { case 1: push true; default: push false; }`. -/
def switchFall : Stmts Bool :=
  .cons (.switch [true] (.cons [some 1#32] (.cons (.expr [true]) .nil)
    (.cons [none] (.cons (.expr [false]) .nil) .nil))) .nil

/-- **C69 refuted**: when the value is a known constant, the case does not fall through at all. -/
theorem switch_known_refuted : ∃ cmds, compileMethod ⟨true, true⟩ seeing switchFall = .ok cmds ∧
    switchFall.run demo 1 [] = some (.pass, [false, true]) ∧
    Reach demo.machine cmds (.at_ 0 []) (.at_ cmds.length [true]) := by
  exact ⟨_, rfl, rfl, 1, rfl⟩

/-- **C69 refuted** for `goto`: it is accepted, and nothing is generated for it. -/
theorem goto_refuted : ∃ cmds, compileMethod plainOpts blind (.cons (.goto_ 5) (.cons (.ret none) .nil))
      = .ok cmds ∧
    (Stmts.cons (.goto_ 5) (.cons (.ret none) .nil)).run demo 1 [] = some (.goto_ 5, []) ∧
    Reach demo.machine cmds (.at_ 0 []) (.returned []) := by
  exact ⟨_, rfl, rfl, 1, rfl⟩

/-- **C28 refuted**: two `default` cases are accepted in a switch without constants that is turned
into a statement, and rejected otherwise. -/
theorem two_defaults_refuted :
    (compileMethod (A := Bool) ⟨false, true⟩ blind
      (.cons (.switch [true] (.cons [none] .nil (.cons [none] .nil .nil))) .nil)).toOption.isSome = true ∧
    (compileMethod (A := Bool) ⟨false, false⟩ blind
      (.cons (.switch [true] (.cons [none] .nil (.cons [none] .nil .nil))) .nil)).toOption.isSome = false := by
  decide +kernel

end Verif.Stmt.Props
