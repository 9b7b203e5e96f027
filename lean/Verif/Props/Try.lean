import Verif.Proof.TryMain
import Verif.Proof.TryRun

/-!
# Properties of compiled methods with `try` statements

The claim: a method with `try`, `catch`, `finally`, `throw`, `break` and `continue`, compiled and executed,
does what it means (`Verif.Try.Runs`).  It is proved for the methods that `Fits` and `Honest` describe, and
refuted, by a method each, for those that they leave out.
-/

namespace Verif.Try.Props

open Verif.Try
open Verif.Block (Blk Nested)

variable {A S : Type} {M : Machine A S} {is_ : Nat → Nat → Bool} {F : Verif.Stmt.Folder A}

/-- A method without `try` has no blocks. -/
theorem noTry_blocks (F : Verif.Stmt.Folder A) : ∀ (need : Bool) (s : Stmt A) (pos : Nat), NoTry s →
    (Block.emit (shape F need s) pos).2 = []
  | _, .skip, _, _ => rfl
  | _, .act _, _, _ => rfl
  | need, .seq a b, pos, h => by
    rw [NoTry] at h
    simp only [shape, Block.emit, noTry_blocks F need a _ h.1, noTry_blocks F need b _ h.2, List.append_nil]
  | need, .if_ c a b, pos, h => by
    rw [NoTry] at h
    simp only [shape, Block.emit, noTry_blocks F need a _ h.1, noTry_blocks F need b _ h.2, List.append_nil]
  | need, .while_ c a, pos, h => by
    rw [NoTry] at h
    simp only [shape, Block.emit, noTry_blocks F false a _ h, List.append_nil]
  | _, .brk, _, _ => rfl
  | _, .cont, _, _ => rfl
  | _, .thr _, _, _ => rfl
  | _, .rethrow, _, _ => rfl
  | _, .try_ .., _, h => by rw [NoTry] at h; exact h.elim

theorem fresh_idle : Idle fresh := ⟨rfl, rfl, rfl, ⟨(by intro n h; cases h), (by intro n h; cases h)⟩⟩

theorem call_pre {W : Stmt A} {g : Bool} (hf : Fits M ⟨g, false, false, false⟩ W) (hg : g = true → NoTry W)
    (hh : Honest M is_ F W) :
    Pre M is_ F (blocks F W) (method F W) ⟨0, 0, false⟩ ⟨g, false, false, false⟩ W 0 [] 0 fresh where
  ctx := ⟨by intro i hi; simp [method], by intro p _ _; simp [blocks]⟩
  fits := hf
  honest := hh
  need := rfl
  guarded := fun h => Or.inr (noTry_blocks F false W 0 (hg h))
  inFin := by intro h; cases h
  loPos := Nat.le_refl 0
  old := by intro n h; cases h
  mode := Or.inl fresh_idle

/-! ## A test for `Honest`

A part of a `try` whose end the analysis sees, or one that plainly does not get there. -/

mutual
/-- The end of the statement is not reached: there is a jump or a `throw` on each path. -/
def never : Stmt A → Bool
  | .brk => true
  | .cont => true
  | .thr _ => true
  | .rethrow => true
  | .seq a b => never a || never b
  | .if_ _ yes no => never yes && never no
  | .try_ body catches _ => never body && neverCatches catches
  | _ => false
def neverCatches : Catches A → Bool
  | .nil => true
  | .cons _ _ body rest => never body && neverCatches rest
end

mutual
theorem never_normal : ∀ {cur : Option Nat} {s : Stmt A} {v v' : S}, never s = true →
    ¬ Runs M is_ cur s v (.normal v')
  | _, .brk, _, _, _, h => by cases h
  | _, .cont, _, _, _, h => by cases h
  | _, .thr _, _, _, _, h => by cases h
  | _, .rethrow, _, _, _, h => by cases h
  | _, .seq a b, _, _, hn, h => by
    simp only [never, Bool.or_eq_true] at hn
    cases h with
    | seq h1 h2 =>
      rcases hn with hn | hn
      · exact never_normal hn h1
      · exact never_normal hn h2
    | seqLeft h1 h2 => exact h2 _ rfl
  | _, .if_ c yes no, _, _, hn, h => by
    simp only [never, Bool.and_eq_true] at hn
    cases h with
    | ifTrue _ _ h => exact never_normal hn.1 h
    | ifFalse _ _ h => exact never_normal hn.2 h
  | _, .skip, _, _, hn, _ => by simp [never] at hn
  | _, .act _, _, _, hn, _ => by simp [never] at hn
  | _, .while_ .., _, _, hn, _ => by simp [never] at hn
  | cur, .try_ body catches f, v, v', hn, h => by
    simp only [never, Bool.and_eq_true] at hn
    have key : ∀ r : Res S, Guarded M is_ cur body catches v r → ∀ s', r ≠ .normal s' := by
      intro r hg s' hr
      subst hr
      cases hg with
      | whole h1 _ => exact never_normal hn.1 h1
      | caught h1 h2 h3 => exact neverCatches_find hn.2 h2 h3
    generalize hr : (Res.normal v' : Res S) = r at h
    cases h with
    | plain hg => exact key _ hg v' hr.symm
    | fin hg h2 =>
      rename_i r1 s1
      cases r1 with
      | normal s2 => exact key _ hg s2 rfl
      | brk s2 => cases hr
      | cont s2 => cases hr
      | thrown x s2 => cases hr
    | finLeft hg h2 h3 => exact h3 v' hr.symm
theorem neverCatches_find : ∀ {cs : Catches A} {p : Nat → Bool} {x : Nat} {s : Stmt A} {cur : Option Nat} {v v' : S},
    neverCatches cs = true → cs.find p = some (x, s) → ¬ Runs M is_ cur s v (.normal v')
  | .nil, _, _, _, _, _, _, _, h => by simp [Catches.find] at h
  | .cons ty y body rest, p, x, s, _, _, _, hn, h => by
    simp only [neverCatches, Bool.and_eq_true] at hn
    rw [Catches.find] at h
    split at h
    · simp only [Option.some.injEq, Prod.mk.injEq] at h
      obtain ⟨_, rfl⟩ := h
      exact never_normal hn.1
    · exact neverCatches_find hn.2 h
end

mutual
/-- Each part of each `try` is such. -/
def clear (F : Verif.Stmt.Folder A) : Stmt A → Bool
  | .seq a b => clear F a && clear F b
  | .if_ _ yes no => clear F yes && clear F no
  | .while_ _ body => clear F body
  | .try_ body catches fin => (pass F body || never body) && clear F body && clearCatches F catches && clearFin F fin
  | _ => true
def clearCatches (F : Verif.Stmt.Folder A) : Catches A → Bool
  | .nil => true
  | .cons _ _ body rest => (pass F body || never body) && clear F body && clearCatches F rest
def clearFin (F : Verif.Stmt.Folder A) : Fin A → Bool
  | .none => true
  | .some body => (pass F body || never body) && clear F body
end

theorem told_of {s : Stmt A} (h : (pass F s || never s) = true) : Told M is_ F s := by
  intro cur v v' hr
  rcases Bool.or_eq_true _ _ ▸ h with h | h
  · exact h
  · exact absurd hr (never_normal h)

mutual
theorem honest_of_clear : ∀ (s : Stmt A), clear F s = true → Honest M is_ F s
  | .skip, _ => trivial
  | .act _, _ => trivial
  | .brk, _ => trivial
  | .cont, _ => trivial
  | .thr _, _ => trivial
  | .rethrow, _ => trivial
  | .seq a b, h => by
    simp only [clear, Bool.and_eq_true] at h
    rw [Honest]; exact ⟨honest_of_clear a h.1, honest_of_clear b h.2⟩
  | .if_ _ a b, h => by
    simp only [clear, Bool.and_eq_true] at h
    rw [Honest]; exact ⟨honest_of_clear a h.1, honest_of_clear b h.2⟩
  | .while_ _ a, h => by
    rw [clear] at h
    rw [Honest]; exact honest_of_clear a h
  | .try_ body cs f, h => by
    rw [clear] at h
    simp only [Bool.and_eq_true (_ && _ && _), Bool.and_eq_true (_ && _), Bool.and_eq_true (_ || _)] at h
    rw [Honest]
    exact ⟨told_of h.1.1.1, honest_of_clear body h.1.1.2, honest_of_clearCatches cs h.1.2, honest_of_clearFin f h.2⟩
theorem honest_of_clearCatches : ∀ (cs : Catches A), clearCatches F cs = true → HonestCatches M is_ F cs
  | .nil, _ => trivial
  | .cons _ _ body rest, h => by
    rw [clearCatches] at h
    simp only [Bool.and_eq_true (_ && _), Bool.and_eq_true (_ || _)] at h
    rw [HonestCatches]
    exact ⟨told_of h.1.1, honest_of_clear body h.1.2, honest_of_clearCatches rest h.2⟩
theorem honest_of_clearFin : ∀ (f : Fin A), clearFin F f = true → HonestFin M is_ F f
  | .none, _ => trivial
  | .some body, h => by
    rw [clearFin] at h
    simp only [Bool.and_eq_true (_ || _)] at h
    rw [HonestFin]
    exact ⟨told_of h.1, honest_of_clear body h.2⟩
end

/-! ## The claim -/

/-- A method that ends normally: the compiled method gets to the end of its commands with the same variables,
and nothing is left behind: no clause to run, no exception. -/
theorem normal_partial {W : Stmt A} {g : Bool} (hf : Fits M ⟨g, false, false, false⟩ W) (hg : g = true → NoTry W)
    (hh : Honest M is_ F W) {s s' : S} (h : Runs M is_ none W s (.normal s')) :
    ∃ n q, call M is_ F W n s = .at_ (method F W).length s' q ∧ q.queue = [] ∧ q.executing = [] ∧
      q.excs.stack = [] := by
  obtain ⟨q, ⟨n, hr⟩, hq⟩ := sim (T := blocks F W) (Block.emit_nested _ _) h _ _ _ _ _ _ (call_pre hf hg hh) (by intro b hb; cases hb)
  have hi : Idle q := by
    rcases hq with rfl | ⟨_, h⟩
    · exact fresh_idle
    · exact h
  refine ⟨n, q, ?_, hi.queue, hi.executing, hi.stack⟩
  have hl : (method F W).length = len F false W := compile_length F ⟨0, 0, false⟩ W 0
  rw [hl]
  simpa [call] using hr

/-- A method that an exception leaves: the compiled method is left with the same exception, and the same
variables. -/
theorem thrown_partial {W : Stmt A} {g : Bool} (hf : Fits M ⟨g, false, false, false⟩ W) (hg : g = true → NoTry W)
    (hh : Honest M is_ F W) {s s' : S} {x : Nat} (h : Runs M is_ none W s (.thrown x s')) :
    ∃ n, call M is_ F W n s = .left (some x) s' := by
  obtain ⟨_, q, ⟨n, hr⟩, _, _, hq⟩ := sim (T := blocks F W) (Block.emit_nested _ _) h _ _ _ _ _ _ (call_pre hf hg hh) trivial
  obtain ⟨h1, m, h2, h3⟩ := hq
  refine ⟨n, ?_⟩
  rw [call, hr]
  simp [resume, Block.process, h1, top, h2, h3]

/-- There is no other way that such a method ends. -/
theorem ends_partial {W : Stmt A} {g : Bool} (hf : Fits M ⟨g, false, false, false⟩ W) (hg : g = true → NoTry W)
    (hh : Honest M is_ F W) {s : S} {r : Res S} (h : Runs M is_ none W s r) :
    (∃ s', r = .normal s') ∨ ∃ x s', r = .thrown x s' := by
  cases r with
  | normal s' => exact Or.inl ⟨s', rfl⟩
  | thrown x s' => exact Or.inr ⟨x, s', rfl⟩
  | brk s' =>
    have := (sim (T := blocks F W) (Block.emit_nested _ _) h _ _ _ _ _ _ (call_pre hf hg hh) (by intro h; cases h)).1
    cases this
  | cont s' =>
    have := (sim (T := blocks F W) (Block.emit_nested _ _) h _ _ _ _ _ _ (call_pre hf hg hh) (by intro h; cases h)).1
    cases this

/-! ## A machine to try it on -/

/-- Actions: write a number; put a condition on the stack; put an exception there; raise an exception. -/
inductive Demo where
  | say (n : Nat)
  | cond (n : Nat)
  | make (x : Nat)
  | fail (x : Nat)
  deriving DecidableEq

/-- What has been written, the stack, and the exception in the variable of the clauses. -/
abbrev Vars := List Nat × List Nat × Nat

/-- `cond n` is true as long as fewer than `n` numbers have been written. -/
def demo : Machine Demo Vars where
  act := fun a s =>
    match a with
    | .say n => .ok (s.1 ++ [n], s.2)
    | .cond n => .ok (s.1, (if s.1.length < n then 1 else 0) :: s.2.1, s.2.2)
    | .make x => .ok (s.1, x :: s.2.1, s.2.2)
    | .fail x => .error (x, s.1, [], s.2.2)
  popBool := fun s => (s.2.1.headD 0 == 1, s.1, s.2.1.tail, s.2.2)
  popExc := fun s => (s.2.1.headD 0, s.1, [], s.2.2)
  push := fun x s => (s.1, x :: s.2.1, s.2.2)
  store := fun _ s => (s.1, s.2.1.tail, s.2.1.headD 0)

/-- The type `0` is that of all exceptions, another one that of the exceptions with that number. -/
def isA (x t : Nat) : Bool := t == 0 || x == t

/-- No condition is constant. -/
def blind : Verif.Stmt.Folder Demo := ⟨fun _ => none, fun _ => none⟩

/-- `cond 100` is true. -/
def seeing : Verif.Stmt.Folder Demo := ⟨fun c => if c = [.cond 100] then some true else none, fun _ => none⟩

def start : Vars := ([], [], 0)

/-- Where the machine is, and the variables. -/
def Conf.seen : Conf Vars → Option (Nat × Vars)
  | .at_ pc s _ => some (pc, s)
  | _ => none

def Conf.isWild : Conf Vars → Bool
  | .wild => true
  | _ => false

theorem seen_at {c : Conf Vars} {pc : Nat} {s : Vars} (h : Conf.seen c = some (pc, s)) : ∃ q, c = .at_ pc s q := by
  cases c with
  | at_ pc' s' q =>
    simp only [Conf.seen, Option.some.injEq, Prod.mk.injEq] at h
    obtain ⟨rfl, rfl⟩ := h
    exact ⟨q, rfl⟩
  | left x s => cases h
  | wild => cases h

theorem isWild_wild {c : Conf Vars} (h : Conf.isWild c = true) : c = .wild := by
  cases c with
  | wild => rfl
  | left x s => cases h
  | at_ pc s q => cases h

theorem safe_say (n : Nat) : Safe demo (.say n) := fun _ => ⟨_, rfl⟩
theorem safe_cond (n : Nat) : Safe demo (.cond n) := fun _ => ⟨_, rfl⟩

/-- `while (c) try { say 1; try { say 2; if (d) throw 7; else break; } catch (7) { say 3; continue; }
finally { say 4; } } finally { say 5; }`: loops left and continued through two `finally` clauses. -/
def nest : Stmt Demo :=
  .while_ (.cond 8) (.try_ (.seq (.act (.say 1)) (.try_ (.seq (.act (.say 2)) (.if_ (.cond 4) (.thr (.make 7)) .brk))
    (.cons 7 0 (.seq (.act (.say 3)) .cont) .nil) (.some (.act (.say 4))))) .nil (.some (.act (.say 5))))

theorem nest_fits : Fits demo ⟨false, false, false, false⟩ nest := by
  simp [nest, Fits, FitsCatches, FitsFin, Calm, safe_say, safe_cond, Fin.any, Catches.any]

/-- The hypotheses hold, and the method ends normally. -/
example : Fits demo ⟨false, false, false, false⟩ nest ∧ Honest demo isA blind nest ∧
    Runs demo isA none nest start (.normal ([1, 2, 3, 4, 5, 1, 2, 4, 5], [], 7)) :=
  ⟨nest_fits, honest_of_clear nest (by decide +kernel), run_sound demo isA 30 none nest start _ rfl⟩

/-- What the compiled method does then. -/
example : ∃ q, call demo isA blind nest 100 start = .at_ (method blind nest).length ([1, 2, 3, 4, 5, 1, 2, 4, 5], [], 7) q :=
  seen_at (by decide +kernel)

/-- `try { try { fail 7 } catch (8) { say 1 } finally { say 2 } } finally { say 3 }`: an exception leaves it. -/
def leaves : Stmt Demo :=
  .try_ (.try_ (.act (.fail 7)) (.cons 8 0 (.act (.say 1)) .nil) (.some (.act (.say 2)))) .nil (.some (.act (.say 3)))

theorem leaves_fits : Fits demo ⟨false, false, false, false⟩ leaves := by
  simp [leaves, Fits, FitsCatches, FitsFin, Calm, safe_say, Fin.any, Catches.any]

example : Fits demo ⟨false, false, false, false⟩ leaves ∧ Honest demo isA blind leaves ∧
    Runs demo isA none leaves start (.thrown 7 ([2, 3], [], 0)) :=
  ⟨leaves_fits, honest_of_clear leaves (by decide +kernel), run_sound demo isA 30 none leaves start _ rfl⟩

/-- Exceptions anywhere, in a method without `try`. -/
example : Fits demo ⟨true, false, false, false⟩ (.seq (.act (.say 1)) (.act (.fail 7))) ∧
    NoTry (Stmt.seq (.act (Demo.say 1)) (.act (.fail 7))) ∧
    Runs demo isA none (.seq (.act (.say 1)) (.act (.fail 7))) start (.thrown 7 ([1], [], 0)) :=
  ⟨by simp [Fits], by simp [NoTry], run_sound demo isA 30 none _ start _ rfl⟩

/-! ## Refuted

Each method ends normally, or with an exception; what the compiled method does is something else. -/

/-- `try { say 1 } catch (Exception) { } fail 7`. -/
def unguarded : Stmt Demo := .seq (.try_ (.act (.say 1)) (.cons 0 0 .skip .nil) .none) (.act (.fail 7))

/-- An exception that is raised outside of the `try` statements of a method that has one: the search for a
handler reads past the table of blocks. -/
theorem unguarded_refuted : Runs demo isA none unguarded start (.thrown 7 ([1], [], 0)) ∧
    call demo isA blind unguarded 100 start = .wild :=
  ⟨run_sound demo isA 30 none unguarded start _ rfl, isWild_wild (by decide +kernel)⟩

/-- `while (c) try { say 1; break; } catch (Exception) { }`. -/
def breakOut : Stmt Demo := .while_ (.cond 8) (.try_ (.seq (.act (.say 1)) .brk) (.cons 0 0 .skip .nil) .none)

/-- `break` out of a `try` without `finally`: the search for `finally` clauses reads past the table. -/
theorem break_refuted : Runs demo isA none breakOut start (.normal ([1], [], 0)) ∧
    call demo isA blind breakOut 100 start = .wild :=
  ⟨run_sound demo isA 30 none breakOut start _ rfl, isWild_wild (by decide +kernel)⟩

/-- `try { try { throw 7 } catch (Exception) { say 1; throw; } } catch (Exception) { say 2 }`. -/
def again : Stmt Demo :=
  .try_ (.try_ (.thr (.make 7)) (.cons 0 0 (.seq (.act (.say 1)) .rethrow) .nil) .none)
    (.cons 0 0 (.act (.say 2)) .nil) .none

/-- `throw;` does nothing: the outer clause is not entered. -/
theorem rethrow_refuted : Runs demo isA none again start (.normal ([1, 2], [], 7)) ∧
    ∃ q, call demo isA blind again 100 start = .at_ (method blind again).length ([1], [], 7) q :=
  ⟨run_sound demo isA 30 none again start _ rfl, seen_at (by decide +kernel)⟩

/-- `try { try { throw 7 } catch (7) { say 1 } } catch (Exception) { say 2 }`. -/
def fallInto : Stmt Demo :=
  .try_ (.try_ (.thr (.make 7)) (.cons 7 0 (.act (.say 1)) .nil) .none) (.cons 0 0 (.act (.say 2)) .nil) .none

/-- How the `catch` clauses end does not count when the end of a `try` is searched for: behind the inner one
there is no jump, and the outer clause runs though there is no exception.  `Told` is wrong of it. -/
theorem fall_refuted : Runs demo isA none fallInto start (.normal ([1], [], 7)) ∧
    (∃ q, call demo isA blind fallInto 100 start = .at_ (method blind fallInto).length ([1, 2], [], 0) q) ∧
    Fits demo ⟨false, false, false, false⟩ fallInto ∧ ¬ Honest demo isA blind fallInto := by
  refine ⟨run_sound demo isA 30 none fallInto start _ rfl, seen_at (by decide +kernel),
    by simp [fallInto, Fits, FitsCatches, FitsFin, Fin.any, Catches.any, safe_say], ?_⟩
  intro h
  rw [fallInto, Honest] at h
  have := h.1 none start _ (run_sound demo isA 30 none _ start (.normal ([1], [], 7)) rfl)
  revert this
  decide +kernel

/-- `try { while (true) { if (c) say 1; else if (d) break; else throw 7; } } catch (Exception) { say 2 }`. -/
def endless : Stmt Demo :=
  .try_ (.while_ (.cond 100) (.if_ (.cond 3) (.act (.say 1)) (.if_ (.cond 50) .brk (.thr (.make 7)))))
    (.cons 0 0 (.act (.say 2)) .nil) .none

/-- A loop whose condition is the constant `true` counts as one that does not end, also when there is a
`break` in it: the clause behind it runs though there is no exception. -/
theorem endless_refuted : Runs demo isA none endless start (.normal ([1, 1, 1], [], 0)) ∧
    ∃ q, call demo isA seeing endless 100 start = .at_ (method seeing endless).length ([1, 1, 1, 2], [], 0) q :=
  ⟨run_sound demo isA 30 none endless start _ rfl, seen_at (by decide +kernel)⟩

/-- `try { try { fail 7 } finally { try { fail 8 } catch (8) { say 1 } } } catch (7) { say 2 }`. -/
def swapped : Stmt Demo :=
  .try_ (.try_ (.act (.fail 7)) .nil (.some (.try_ (.act (.fail 8)) (.cons 8 0 (.act (.say 1)) .nil) .none)))
    (.cons 7 0 (.act (.say 2)) .nil) .none

/-- An exception that is raised and caught in a `finally` clause takes the place of the one that waits: the
variable of the outer clause has the wrong one. -/
theorem swapped_refuted : Runs demo isA none swapped start (.normal ([1, 2], [], 7)) ∧
    (∃ q, call demo isA blind swapped 100 start = .at_ (method blind swapped).length ([1, 2], [], 8) q) ∧
    Honest demo isA blind swapped :=
  ⟨run_sound demo isA 30 none swapped start _ rfl, seen_at (by decide +kernel), honest_of_clear swapped (by decide +kernel)⟩

/-- `try { try { try { fail 7 } finally { fail 8 } } catch (8) { say 1 } try { fail 9 } finally { say 2 } }
catch (7) { say 3 }`. -/
def stale : Stmt Demo :=
  .try_ (.seq (.try_ (.try_ (.act (.fail 7)) .nil (.some (.act (.fail 8)))) (.cons 8 0 (.act (.say 1)) .nil) .none)
    (.try_ (.act (.fail 9)) .nil (.some (.act (.say 2))))) (.cons 7 0 (.act (.say 3)) .nil) .none

/-- An exception that leaves a `finally` clause: the clause for the one before still waits, and is entered with
a later one that it is not for. -/
theorem stale_refuted : Runs demo isA none stale start (.thrown 9 ([1, 2], [], 8)) ∧
    (∃ q, call demo isA blind stale 100 start = .at_ (method blind stale).length ([1, 2, 3], [], 9) q) ∧
    Honest demo isA blind stale :=
  ⟨run_sound demo isA 30 none stale start _ rfl, seen_at (by decide +kernel), honest_of_clear stale (by decide +kernel)⟩

/-- `try { while (c) try { fail 7 } finally { say 1; break; } try { fail 9 } finally { say 2 } }
catch (7) { say 3 }`. -/
def breakFin : Stmt Demo :=
  .try_ (.seq (.while_ (.cond 8) (.try_ (.act (.fail 7)) .nil (.some (.seq (.act (.say 1)) .brk))))
    (.try_ (.act (.fail 9)) .nil (.some (.act (.say 2))))) (.cons 7 0 (.act (.say 3)) .nil) .none

/-- The same with `break` out of a `finally` clause. -/
theorem break_finally_refuted : Runs demo isA none breakFin start (.thrown 9 ([1, 2], [], 0)) ∧
    (∃ q, call demo isA blind breakFin 100 start = .at_ (method blind breakFin).length ([1, 2, 3], [], 9) q) ∧
    Honest demo isA blind breakFin :=
  ⟨run_sound demo isA 30 none breakFin start _ rfl, seen_at (by decide +kernel), honest_of_clear breakFin (by decide +kernel)⟩

end Verif.Try.Props
