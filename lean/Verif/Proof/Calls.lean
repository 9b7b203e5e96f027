import Verif.Spec.Calls

/-!
# Lemmas about the call stack

The stack of units holds the calls under way one behind the other: parameters, stub, local variables, operands.
-/

namespace Verif.Calls

open Spec (Val Place Frame)

/-! ## Which programs -/

/-- A method of which a delegate may be made: the code calls it right. -/
def Delegable (P : Program) (m : Nat) : Prop := (∃ M, P.methods[m]? = some M ∧ M.static = false) ∧ ∀ c, P.override c m = m

/-- The parameters an instruction names exist. -/
def Fits (P : Program) (M : Meth) : Instr → Prop
  | .arg _ i | .content _ i | .argAddr i | .popArg _ i | .popArgAddr _ i | .pickArg _ i => i < M.units
  | .pickArgAddr _ _ => False
  | .callVirtual m => ∃ N, P.methods[m]? = some N ∧ 0 < N.units
  | .method m => Delegable P m
  | .delegateInit | .delegateInvoke => False
  | _ => True

/-- The programs of the theorem. -/
structure Fine (P : Program) : Prop where
  fits : ∀ M ∈ P.methods, ∀ i ∈ M.body, Fits P M i
  /-- No ordinary parameter is assigned to that is as far below the stub as a `ref` parameter of the same type that is assigned to. -/
  apart : ∀ M ∈ P.methods, ∀ N ∈ P.methods, ∀ t i j, Instr.popArg t i ∈ M.body → Instr.popArgAddr t j ∈ N.body →
    M.units - i ≠ N.units - j

/-! ## Commands -/

theorem offsetOf_lt {M : Meth} {i : Nat} (h : i < M.units) : M.offsetOf i = some (M.units - i) := by simp [Meth.offsetOf, h]

/-- The command that belongs to a key, when there is only one. -/
def Key.cmd : Key → Option Cmd
  | .const n => some (.const n)
  | .null => some .null
  | .new c => some (.new c)
  | .method m => some (.method m)
  | .pushLocal o => some (.pushLocal o)
  | .pushArgument _ o => some (.pushArg (o + stub))
  | .pushArgumentContent _ o => some (.pushContent (o + stub))
  | .pushLocalAddr o => some (.pushLocalAddr o)
  | .pushArgumentAddr o => some (.pushArgAddr (o + stub))
  | .popLocal o => some (.popLocal o)
  | .popArgument _ _ => none
  | .pickArgument _ o => some (.pickArg (o + stub))
  | .popEmpty => some .popEmpty
  | .bin o => some (.bin o)
  | .jump s => some (.jump s)
  | .jumpFalse s => some (.jumpFalse s)
  | .call m => some (.call m)
  | .callVirtual m o => some (.callVirtual m o)
  | .ret l p r => some (.ret l p r)
  | .show => some .show
  | .halt => some .halt
  | .delegateInit o => some (.delegateInit (o - 1 + stub) (o - 2 + stub) (o + stub))
  | .delegateInvoke o => some (.delegateInvoke (o + stub))

/-- A place where instructions come from. -/
def Has (P : Program) (M : Meth) (i : Instr) : Prop := ∃ m, P.info m = some M ∧ i ∈ M.body

theorem info_cases {P : Program} {m : MRef} {M : Meth} (h : P.info m = some M) :
    (∃ n, m = .meth n ∧ P.methods[n]? = some M) ∨ M = ⟨false, 2, 0, false, [.delegateInit, .ret]⟩ ∨
      ∃ n r, M = ⟨false, n, 0, r, [.delegateInvoke, .ret]⟩ := by
  cases m with
  | meth n => exact Or.inl ⟨n, rfl, h⟩
  | delegateCtor => simp only [Program.info, Option.some.injEq] at h; exact Or.inr (Or.inl h.symm)
  | delegateInvoke n r => simp only [Program.info, Option.some.injEq] at h; exact Or.inr (Or.inr ⟨n, r, h.symm⟩)

theorem has_user {P : Program} {M : Meth} {i : Instr} (h : Has P M i) :
    M ∈ P.methods ∨ (M = ⟨false, 2, 0, false, [.delegateInit, .ret]⟩ ∧ (i = .delegateInit ∨ i = .ret)) ∨
      ∃ n r, M = ⟨false, n, 0, r, [.delegateInvoke, .ret]⟩ ∧ (i = .delegateInvoke ∨ i = .ret) := by
  obtain ⟨m, hm, hi⟩ := h
  rcases info_cases hm with ⟨n, _, hn⟩ | rfl | ⟨n, r, rfl⟩
  · exact Or.inl (List.mem_of_getElem? hn)
  · simp at hi; exact Or.inr (Or.inl ⟨rfl, hi⟩)
  · simp at hi; exact Or.inr (Or.inr ⟨n, r, rfl, hi⟩)

theorem build_key {P : Program} {M : Meth} {i : Instr} {k : Key} {c : Cmd} (h : build P M i = some (k, c)) :
    k.cmd = some c ∨ (∃ t o j, k = .popArgument t o ∧ M.offsetOf j = some o ∧
      ((i = .popArg t j ∧ c = .popArg (o + stub)) ∨ (i = .popArgAddr t j ∧ c = .popArgAddr (o + stub)))) := by
  cases i
  case popArg t j =>
    simp only [build, Option.map_eq_some_iff, Prod.mk.injEq] at h
    obtain ⟨o, ho, rfl, rfl⟩ := h
    exact Or.inr ⟨t, o, j, rfl, ho, Or.inl ⟨rfl, rfl⟩⟩
  case popArgAddr t j =>
    simp only [build, Option.map_eq_some_iff, Prod.mk.injEq] at h
    obtain ⟨o, ho, rfl, rfl⟩ := h
    exact Or.inr ⟨t, o, j, rfl, ho, Or.inr ⟨rfl, rfl⟩⟩
  case delegateInit =>
    left
    simp only [build] at h
    split at h
    · rename_i o o1 o2 h0 h1 h2
      simp only [Option.some.injEq, Prod.mk.injEq] at h
      obtain ⟨rfl, rfl⟩ := h
      simp only [Meth.offsetOf] at h0 h1 h2
      simp only [Key.cmd, Option.some.injEq, Cmd.delegateInit.injEq, Nat.add_right_cancel_iff, and_true]
      split at h0 <;> split at h1 <;> split at h2 <;> simp_all
    · simp at h
  case callVirtual m =>
    left
    simp only [build, Option.bind_eq_some_iff, Option.map_eq_some_iff, Prod.mk.injEq] at h
    obtain ⟨N, _, o, _, rfl, rfl⟩ := h
    rfl
  case pickArgAddr => simp [build] at h
  all_goals
    left
    simp only [build, Option.map_eq_some_iff, Prod.mk.injEq, Option.some.injEq, reduceCtorEq] at h
    first
      | (obtain ⟨o, _, rfl, rfl⟩ := h; rfl)
      | (obtain ⟨rfl, rfl⟩ := h; rfl)

theorem offsetOf_inj {M : Meth} {i o : Nat} (h : M.offsetOf i = some o) : o = M.units - i := by
  simp only [Meth.offsetOf] at h
  split at h
  · simp at h; omega
  · split at h
    · simp at h; omega
    · simp at h

/-- In a fine program a key has one command. -/
theorem key_unique {P : Program} (fine : Fine P) {M N : Meth} {i j : Instr} {k : Key} {c d : Cmd} (hi : Has P M i)
    (hj : Has P N j) (hc : build P M i = some (k, c)) (hd : build P N j = some (k, d)) : c = d := by
  rcases build_key hc with h | ⟨t, o, a, rfl, ha, h⟩
  · rcases build_key hd with h' | ⟨t, o, b, rfl, _, _⟩
    · exact Option.some.inj (h.symm.trans h')
    · simp [Key.cmd] at h
  · rcases build_key hd with h' | ⟨t', o', b, hk, hb, h'⟩
    · simp [Key.cmd] at h'
    · simp only [Key.popArgument.injEq] at hk
      obtain ⟨rfl, rfl⟩ := hk
      have ea := offsetOf_inj ha
      have eb := offsetOf_inj hb
      have user : ∀ {M : Meth} {i : Instr} {a : Nat}, Has P M i → (i = .popArg t a ∨ i = .popArgAddr t a) →
          M ∈ P.methods ∧ i ∈ M.body := by
        intro M i a hi h
        rcases has_user hi with u | ⟨_, u⟩ | ⟨_, _, _, u⟩
        · exact ⟨u, hi.choose_spec.2⟩
        · rcases h with rfl | rfl <;> simp at u
        · rcases h with rfl | rfl <;> simp at u
      rcases h with ⟨rfl, rfl⟩ | ⟨rfl, rfl⟩ <;> rcases h' with ⟨rfl, rfl⟩ | ⟨rfl, rfl⟩
      · rfl
      · exact absurd (ea.symm.trans eb) (fine.apart M (user hi (Or.inl rfl)).1 N (user hj (Or.inr rfl)).1 t a b
          (user hi (Or.inl rfl)).2 (user hj (Or.inr rfl)).2)
      · exact absurd (eb.symm.trans ea) (fine.apart N (user hj (Or.inl rfl)).1 M (user hi (Or.inr rfl)).1 t b a
          (user hj (Or.inl rfl)).2 (user hi (Or.inr rfl)).2)
      · rfl

/-- In a fine program every instruction has a command. -/
theorem builds {P : Program} (fine : Fine P) {M : Meth} {i : Instr} (h : Has P M i) : ∃ k c, build P M i = some (k, c) := by
  rcases has_user h with u | ⟨rfl, rfl | rfl⟩ | ⟨n, r, rfl, rfl | rfl⟩
  · have f := fine.fits M u i h.choose_spec.2
    cases i <;> simp only [Fits] at f <;> try (exact ⟨_, _, rfl⟩)
    all_goals first
      | (rw [build, offsetOf_lt f]; exact ⟨_, _, rfl⟩)
      | (obtain ⟨N, hN, h0⟩ := f; rw [build, hN, Option.bind_some, offsetOf_lt h0]; exact ⟨_, _, rfl⟩)
  · exact ⟨_, _, rfl⟩
  · exact ⟨_, _, rfl⟩
  · simp only [build, Meth.offsetOf, Meth.units]; exact ⟨_, _, rfl⟩
  · exact ⟨_, _, rfl⟩

/-- What the cache and the parsed methods hold. -/
structure Inv (P : Program) (parsed : List (MRef × List Cmd)) (cache : Cache) : Prop where
  parsed : ∀ m cs, parsed.lookup m = some cs → ∃ M, P.info m = some M ∧
    cs.map some = M.body.map fun i => (build P M i).map Prod.snd
  cache : ∀ k c, cache.lookup k = some c → ∃ M i, Has P M i ∧ build P M i = some (k, c)

theorem parseBody_ok {P : Program} (fine : Fine P) {M : Meth} {m : MRef} (hm : P.info m = some M) :
    ∀ (is : List Instr) (cache : Cache), (∀ i ∈ is, i ∈ M.body) →
      (∀ k c, cache.lookup k = some c → ∃ M i, Has P M i ∧ build P M i = some (k, c)) →
      ∃ cs cache', parseBody P M is cache = some (cs, cache') ∧
        cs.map some = is.map (fun i => (build P M i).map Prod.snd) ∧
        (∀ k c, cache'.lookup k = some c → ∃ M i, Has P M i ∧ build P M i = some (k, c))
  | [], cache, _, hc => ⟨[], cache, rfl, rfl, hc⟩
  | i :: is, cache, hb, hc => by
    have hi : Has P M i := ⟨m, hm, hb i (by simp)⟩
    obtain ⟨k, c, hk⟩ := builds fine hi
    have key : ∃ cache', getCommand cache k c = (c, cache') ∧
        (∀ k c, cache'.lookup k = some c → ∃ M i, Has P M i ∧ build P M i = some (k, c)) := by
      unfold getCommand
      cases hl : cache.lookup k with
      | some c' =>
        obtain ⟨N, j, hj, hd⟩ := hc k c' hl
        exact ⟨cache, by rw [key_unique fine hi hj hk hd], hc⟩
      | none =>
        refine ⟨_, rfl, ?_⟩
        intro k' c' h
        rw [List.lookup_cons] at h
        by_cases e : k' = k
        · subst e
          simp at h
          subst h
          exact ⟨M, i, hi, hk⟩
        · have : (k' == k) = false := by simpa using e
          rw [this] at h
          exact hc k' c' h
    obtain ⟨cache1, e1, hc1⟩ := key
    obtain ⟨cs, cache2, e2, h2, hc2⟩ := parseBody_ok fine hm is cache1 (fun j hj => hb j (by simp [hj])) hc1
    refine ⟨c :: cs, cache2, ?_, ?_, hc2⟩
    · simp [parseBody, hk, e1, e2]
    · simp [hk, h2]

/-- Loading a method gives its commands and changes nothing else. -/
theorem load_ok {P : Program} (fine : Fine P) {s : St} (inv : Inv P s.parsed s.cache) {m : MRef} {M : Meth}
    (hm : P.info m = some M) :
    ∃ cs parsed' cache', s.load P m = some (cs, { s with parsed := parsed', cache := cache' }) ∧ Inv P parsed' cache' ∧
      (parsed'.lookup m).isSome ∧ ∀ x, (s.parsed.lookup x).isSome → (parsed'.lookup x).isSome := by
  unfold St.load
  cases hl : s.parsed.lookup m with
  | some cs => exact ⟨cs, s.parsed, s.cache, rfl, inv, by simp [hl], fun _ h => h⟩
  | none =>
    obtain ⟨cs, cache', e, hcs, hc⟩ := parseBody_ok fine hm M.body s.cache (fun _ h => h) inv.cache
    refine ⟨cs, (m, cs) :: s.parsed, cache', by simp [hm, e], ⟨?_, hc⟩, by simp, ?_⟩
    · intro x ys h
      rw [List.lookup_cons] at h
      by_cases ex : x = m
      · subst ex
        simp at h
        subst h
        exact ⟨M, hm, hcs⟩
      · have : (x == m) = false := by simpa using ex
        rw [this] at h
        exact inv.parsed x ys h
    · intro x h
      rw [List.lookup_cons]
      by_cases ex : x = m
      · subst ex; simp
      · have : (x == m) = false := by simpa using ex
        rw [this]; exact h

/-- Fetching: behind an instruction of a loaded method stands its command. -/
theorem fetch {P : Program} {parsed : List (MRef × List Cmd)} {cache : Cache} (inv : Inv P parsed cache) {m : MRef} {M : Meth}
    (hm : P.info m = some M) (hp : (parsed.lookup m).isSome) {pc : Nat} {i : Instr} (hi : M.body[pc]? = some i) :
    ∃ cs, parsed.lookup m = some cs ∧ ∃ c k, cs[pc]? = some c ∧ build P M i = some (k, c) := by
  obtain ⟨cs, hcs⟩ := Option.isSome_iff_exists.1 hp
  obtain ⟨N, hN, h⟩ := inv.parsed m cs hcs
  have : N = M := Option.some.inj (hN.symm.trans hm)
  subst this
  refine ⟨cs, hcs, ?_⟩
  have e := congrArg (fun l => l[pc]?) h
  simp only [List.getElem?_map, hi, Option.map_some] at e
  cases hc : cs[pc]? with
  | none => simp [hc] at e
  | some c =>
    simp only [hc, Option.map_some, Option.some.injEq] at e
    cases hb : build P N i with
    | none => simp [hb] at e
    | some kc =>
      obtain ⟨k, c'⟩ := kc
      simp only [hb, Option.map_some, Option.some.injEq] at e
      exact ⟨c, k, rfl, by rw [e]⟩

/-! ## Where the calls lie -/

theorem upd_same (mem : Nat → Unit64) (a : Nat) (v : Unit64) : upd mem a v a = v := by simp [upd]
theorem upd_ne {mem : Nat → Unit64} {a x : Nat} {v : Unit64} (h : x ≠ a) : upd mem a v x = mem x := by simp [upd, h]

/-- The units of a call. -/
def size (f : Frame) : Nat := f.args.length + 3 + f.locals.length + f.stack.length

/-- The end of the units of the calls. -/
def topOf : List Frame → Nat
  | [] => 0
  | f :: r => topOf r + size f

/-- Where the local variables begin. -/
def lpOf (f : Frame) (r : List Frame) : Nat := topOf r + f.args.length + 3

def lpTop : List Frame → Nat
  | [] => 0
  | f :: r => lpOf f r

/-- Where a call goes back to. -/
def retOf : List Frame → MRef × Nat
  | [] => (.meth 0, 0)
  | g :: _ => (.meth g.m, g.pc)

/-- The unit of a variable. -/
def cell : List Frame → Nat → Place → Option Nat
  | [], _, _ => none
  | f :: r, d, k =>
    if d = r.length then
      match k with
      | .loc i => if i < f.locals.length then some (lpOf f r + i) else none
      | .arg i => if i < f.args.length then some (topOf r + i) else none
    else cell r d k

theorem cell_cons (f : Frame) (r : List Frame) (d : Nat) (k : Place) :
    cell (f :: r) d k = if d = r.length then
      (match k with
      | .loc i => if i < f.locals.length then some (lpOf f r + i) else none
      | .arg i => if i < f.args.length then some (topOf r + i) else none)
      else cell r d k := by cases k <;> rfl

theorem load_cons (f : Frame) (r : List Frame) (d : Nat) (k : Place) :
    Spec.load (f :: r) d k = if d = r.length then
      (match k with
      | .loc i => (f.locals[i]?).join
      | .arg i => f.args[i]?)
      else Spec.load r d k := by cases k <;> rfl

theorem store_cons (f : Frame) (r : List Frame) (d : Nat) (k : Place) (v : Val) :
    Spec.store (f :: r) d k v = if d = r.length then
      (match k with
      | .loc i => if i < f.locals.length then some ({ f with locals := f.locals.set i (some v) } :: r) else none
      | .arg i => if i < f.args.length then some ({ f with args := f.args.set i v } :: r) else none)
      else (Spec.store r d k v).map (f :: ·) := by cases k <;> rfl

/-- A value and the unit that holds it. -/
def Rel (P : Program) (cl : Nat → Place → Option Nat) : Val → Unit64 → Prop
  | .int n, w => w = .int n
  | .null, w => w = .null
  | .obj i c, w => w = .obj i c
  | .meth m, w => w = .meth m ∧ Delegable P m
  | .var d k, w => ∃ a, w = .addr a ∧ cl d k = some a

theorem Rel.plain {P : Program} {cl cl' : Nat → Place → Option Nat} {v : Val} {w : Unit64} (hv : v.plain = true)
    (h : Rel P cl v w) : Rel P cl' v w := by
  cases v <;> first | exact h | simp [Val.plain] at hv

theorem Rel.mono {P : Program} {cl cl' : Nat → Place → Option Nat} (hc : ∀ d k a, cl d k = some a → cl' d k = some a) {v : Val}
    {w : Unit64} (h : Rel P cl v w) : Rel P cl' v w := by
  cases v <;> try exact h
  obtain ⟨a, e, h⟩ := h
  exact ⟨a, e, hc _ _ _ h⟩

theorem cell_depth : ∀ {fs : List Frame} {d : Nat} {k : Place} {a : Nat}, cell fs d k = some a → d < fs.length
  | [], _, _, _, h => by simp [cell] at h
  | f :: r, d, k, a, h => by
    rw [cell_cons] at h
    split at h
    · simp; omega
    · have := cell_depth h
      simp; omega

theorem cell_mono {f : Frame} {r : List Frame} : ∀ d k a, cell r d k = some a → cell (f :: r) d k = some a := by
  intro d k a h
  have := cell_depth h
  rw [cell_cons, if_neg (by omega)]
  exact h

theorem cell_lt : ∀ {fs : List Frame} {d : Nat} {k : Place} {a : Nat}, cell fs d k = some a → a < topOf fs
  | [], _, _, _, h => by simp [cell] at h
  | f :: r, d, k, a, h => by
    rw [cell_cons] at h
    simp only [topOf, size]
    split at h
    · cases k with
      | loc i =>
        simp only at h
        split at h
        · simp only [Option.some.injEq, lpOf] at h; omega
        · simp at h
      | arg i =>
        simp only at h
        split at h
        · simp only [Option.some.injEq] at h; omega
        · simp at h
    · have := cell_lt h
      omega

theorem cell_next : ∀ {fs : List Frame} {d i a b : Nat}, cell fs d (.loc i) = some a → cell fs d (.loc (i + 1)) = some b → b = a + 1
  | [], _, _, _, _, h, _ => by simp [cell] at h
  | f :: r, d, i, a, b, h, h' => by
    rw [cell_cons] at h h'
    split at h
    · rename_i e
      rw [if_pos e] at h'
      simp only at h h'
      split at h <;> split at h' <;> simp at h h'
      omega
    · rename_i e
      rw [if_neg e] at h'
      exact cell_next h h'

/-- The operands, from the unit `b` on. -/
def Stk (P : Program) (cl : Nat → Place → Option Nat) (mem : Nat → Unit64) (b : Nat) : List Val → Prop
  | [] => True
  | v :: st => Rel P cl v (mem (b + st.length)) ∧ Stk P cl mem b st

theorem Stk.mem {P : Program} {cl cl' : Nat → Place → Option Nat} {mem mem' : Nat → Unit64} {b : Nat}
    (hc : ∀ d k a, cl d k = some a → cl' d k = some a) :
    ∀ {st : List Val}, (∀ x, b ≤ x → x < b + st.length → mem' x = mem x) → Stk P cl mem b st → Stk P cl' mem' b st
  | [], _, _ => trivial
  | v :: st, hx, h => by
    refine ⟨?_, Stk.mem hc (fun x h1 h2 => hx x h1 (by simp; omega)) h.2⟩
    rw [hx _ (by omega) (by simp)]
    exact h.1.mono hc

theorem Stk.get {P : Program} {cl : Nat → Place → Option Nat} {mem : Nat → Unit64} {b : Nat} :
    ∀ {st : List Val} {j : Nat} {v : Val}, Stk P cl mem b st → st[j]? = some v → Rel P cl v (mem (b + st.length - 1 - j))
  | [], _, _, _, h => by simp at h
  | v :: st, 0, w, h, e => by
    simp only [List.getElem?_cons_zero, Option.some.injEq] at e
    subst e
    have := h.1
    simp only [List.length_cons]
    rwa [show b + (st.length + 1) - 1 - 0 = b + st.length from by omega]
  | v :: st, j + 1, w, h, e => by
    simp only [List.getElem?_cons_succ] at e
    have := Stk.get h.2 e
    simp only [List.length_cons]
    rwa [show b + (st.length + 1) - 1 - (j + 1) = b + st.length - 1 - j from by omega]

theorem Stk.drop {P : Program} {cl : Nat → Place → Option Nat} {mem : Nat → Unit64} {b : Nat} :
    ∀ {st : List Val} (n : Nat), Stk P cl mem b st → Stk P cl mem b (st.drop n)
  | _, 0, h => h
  | [], _ + 1, _ => trivial
  | _ :: st, n + 1, h => Stk.drop (st := st) n h.2

/-- The units of the innermost call. -/
structure Here (P : Program) (mem : Nat → Unit64) (f : Frame) (r : List Frame) : Prop where
  args : ∀ i v, f.args[i]? = some v → Rel P (cell r) v (mem (topOf r + i))
  lp : mem (topOf r + f.args.length) = .addr (lpTop r)
  code : mem (topOf r + f.args.length + 1) = .code (retOf r).1 (retOf r).2
  exec : mem (topOf r + f.args.length + 2) = .exec (.meth f.m)
  locals : ∀ i v, f.locals[i]? = some (some v) → v.plain = true ∧ Rel P (cell r) v (mem (lpOf f r + i))
  stack : Stk P (cell (f :: r)) mem (lpOf f r + f.locals.length) f.stack

/-- The units of all calls. -/
def Lay (P : Program) (mem : Nat → Unit64) : List Frame → Prop
  | [] => True
  | f :: r => Lay P mem r ∧ Here P mem f r

theorem Here.mem {P : Program} {mem mem' : Nat → Unit64} {f : Frame} {r : List Frame}
    (hx : ∀ x, topOf r ≤ x → x < topOf (f :: r) → mem' x = mem x) (h : Here P mem f r) : Here P mem' f r := by
  simp only [topOf, size] at hx
  refine ⟨?_, ?_, ?_, ?_, ?_, ?_⟩
  · intro i v e
    have : i < f.args.length := (List.getElem?_eq_some_iff.1 e).1
    rw [hx _ (by omega) (by omega)]
    exact h.args i v e
  · rw [hx _ (by omega) (by omega)]; exact h.lp
  · rw [hx _ (by omega) (by omega)]; exact h.code
  · rw [hx _ (by omega) (by omega)]; exact h.exec
  · intro i v e
    have : i < f.locals.length := (List.getElem?_eq_some_iff.1 e).1
    rw [hx _ (by simp only [lpOf]; omega) (by simp only [lpOf]; omega)]
    exact h.locals i v e
  · refine h.stack.mem (fun _ _ _ h => h) ?_
    intro x h1 h2
    simp only [lpOf] at h1 h2
    exact hx x (by omega) (by omega)

theorem Lay.mem {P : Program} {mem mem' : Nat → Unit64} :
    ∀ {fs : List Frame}, (∀ x, x < topOf fs → mem' x = mem x) → Lay P mem fs → Lay P mem' fs
  | [], _, _ => trivial
  | f :: r, hx, h =>
    ⟨Lay.mem (fun x hl => hx x (by simp only [topOf]; omega)) h.1, h.2.mem (fun x _ hl => hx x hl)⟩

/-- The shape of the calls: what `topOf`, `lpTop`, `retOf` and `cell` depend on. -/
structure Same (fs fs' : List Frame) : Prop where
  top : topOf fs' = topOf fs
  lp : lpTop fs' = lpTop fs
  ret : retOf fs' = retOf fs
  len : fs'.length = fs.length
  cell : ∀ d k, cell fs' d k = cell fs d k

theorem load_rel {P : Program} {mem : Nat → Unit64} : ∀ {fs : List Frame} {d : Nat} {k : Place} {v : Val} {a : Nat},
    Lay P mem fs → Spec.load fs d k = some v → cell fs d k = some a → Rel P (cell fs) v (mem a)
  | [], _, _, _, _, _, h, _ => by simp [Spec.load] at h
  | f :: r, d, k, v, a, lay, h, hc => by
    rw [load_cons] at h
    rw [cell_cons] at hc
    split at h
    · rename_i e
      rw [if_pos e] at hc
      cases k with
      | loc i =>
        simp only at h hc
        split at hc
        · simp only [Option.some.injEq] at hc
          subst hc
          refine (lay.2.locals i v ?_).2.mono cell_mono
          cases hl : f.locals[i]? with
          | none => simp [hl] at h
          | some x => simp only [hl, Option.join_some] at h; rw [h]
        · simp at hc
      | arg i =>
        simp only at h hc
        split at hc
        · simp only [Option.some.injEq] at hc
          subst hc
          exact (lay.2.args i v h).mono cell_mono
        · simp at hc
    · rename_i e
      rw [if_neg e] at hc
      exact (load_rel lay.1 h hc).mono cell_mono

theorem same_cons {r r' : List Frame} (h : Same r r') (f : Frame) : Same (f :: r) (f :: r') := by
  refine ⟨by simp only [topOf, h.top], by simp only [lpTop, lpOf, h.top], rfl, by simp [h.len], ?_⟩
  intro d k
  simp only [cell_cons, h.len, lpOf, h.top, h.cell]

/-- A write to a variable. -/
theorem store_lay {P : Program} {mem : Nat → Unit64} {v : Val} {w : Unit64} {cl : Nat → Place → Option Nat} (hv : v.plain = true)
    (hw : Rel P cl v w) : ∀ {fs fs' : List Frame} {d : Nat} {k : Place} {a : Nat}, Lay P mem fs →
      Spec.store fs d k v = some fs' → cell fs d k = some a → Lay P (upd mem a w) fs' ∧ Same fs fs'
  | [], _, _, _, _, _, h, _ => by simp [Spec.store] at h
  | f :: r, fs', d, k, a, lay, h, hc => by
    rw [store_cons] at h
    rw [cell_cons] at hc
    split at h
    · rename_i e
      rw [if_pos e] at hc
      have low : ∀ x, topOf r ≤ a → x < topOf r → upd mem a w x = mem x := fun x h1 h2 => upd_ne (by omega)
      have here := lay.2
      cases k with
      | loc i =>
        simp only at h hc
        split at h
        · rename_i hi
          rw [if_pos hi] at hc
          simp only [Option.some.injEq] at h hc
          subst h hc
          refine ⟨⟨lay.1.mem fun x hx => low x (by simp only [lpOf]; omega) hx, ?_⟩, ?_⟩
          · refine ⟨?_, ?_, ?_, ?_, ?_, ?_⟩
            · intro j u ej
              have : j < f.args.length := (List.getElem?_eq_some_iff.1 ej).1
              rw [upd_ne (by simp only [lpOf]; omega)]
              exact here.args j u ej
            · rw [upd_ne (by simp only [lpOf]; omega)]; exact here.lp
            · rw [upd_ne (by simp only [lpOf]; omega)]; exact here.code
            · rw [upd_ne (by simp only [lpOf]; omega)]; exact here.exec
            · intro j u ej
              simp only [List.getElem?_set] at ej
              split at ej
              · rename_i hij
                subst hij
                simp only [Option.some.injEq] at ej
                subst ej
                refine ⟨hv, ?_⟩
                show Rel P _ v (upd mem _ w (lpOf f r + i))
                rw [upd_same]
                exact hw.plain hv
              · rename_i hij
                have := here.locals j u ej
                refine ⟨this.1, ?_⟩
                show Rel P _ u (upd mem _ w (lpOf f r + j))
                rw [upd_ne (by omega)]
                exact this.2
            · have hl : (f.locals.set i (some v)).length = f.locals.length := by simp
              show Stk P _ _ (lpOf f r + (f.locals.set i (some v)).length) f.stack
              rw [hl]
              refine here.stack.mem ?_ ?_
              · intro d' k' a' h'
                rw [cell_cons] at h' ⊢
                simp only [hl, lpOf] at h' ⊢
                exact h'
              · intro x h1 _
                exact upd_ne (by omega)
          · refine ⟨by simp [topOf, size], by simp [lpTop, lpOf], rfl, rfl, ?_⟩
            intro d' k'
            simp [cell_cons, lpOf]
        · simp at h
      | arg i =>
        simp only at h hc
        split at h
        · rename_i hi
          rw [if_pos hi] at hc
          simp only [Option.some.injEq] at h hc
          subst h hc
          have hl : (f.args.set i v).length = f.args.length := by simp
          refine ⟨⟨lay.1.mem fun x hx => low x (by omega) hx, ?_⟩, ?_⟩
          · refine ⟨?_, ?_, ?_, ?_, ?_, ?_⟩
            · intro j u ej
              simp only [List.getElem?_set] at ej
              split at ej
              · rename_i hij
                subst hij
                simp only [Option.some.injEq] at ej
                subst ej
                rw [upd_same]
                exact hw.plain hv
              · rename_i hij
                rw [upd_ne (by omega)]
                exact here.args j u ej
            · rw [hl, upd_ne (by omega)]; exact here.lp
            · rw [hl, upd_ne (by omega)]; exact here.code
            · rw [hl, upd_ne (by omega)]; exact here.exec
            · intro j u ej
              have := here.locals j u ej
              refine ⟨this.1, ?_⟩
              simp only [lpOf, hl] at this ⊢
              rw [upd_ne (by omega)]
              exact this.2
            · simp only [lpOf, hl]
              refine here.stack.mem ?_ ?_
              · intro d' k' a' h'
                rw [cell_cons] at h' ⊢
                simp only [hl, lpOf] at h' ⊢
                exact h'
              · intro x h1 _
                exact upd_ne (by simp only [lpOf] at h1; omega)
          · refine ⟨by simp [topOf, size], by simp [lpTop, lpOf], rfl, rfl, ?_⟩
            intro d' k'
            simp [cell_cons, lpOf]
        · simp at h
    · rename_i e
      rw [if_neg e] at hc
      cases hr : Spec.store r d k v with
      | none => simp [hr] at h
      | some r' =>
        simp only [hr, Option.map_some, Option.some.injEq] at h
        subst h
        obtain ⟨lay', same⟩ := store_lay hv hw lay.1 hr hc
        have hlt := cell_lt hc
        refine ⟨⟨lay', ?_⟩, same_cons same f⟩
        have here : Here P (upd mem a w) f r := lay.2.mem fun x hx _ => upd_ne (by omega)
        have hcell : cell r' = cell r := by funext d k; exact same.cell d k
        have hcell2 : cell (f :: r') = cell (f :: r) := by funext d k; exact (same_cons same f).cell d k
        exact ⟨by rw [hcell, same.top]; exact here.args, by rw [same.top, same.lp]; exact here.lp,
          by rw [same.top, same.ret]; exact here.code, by rw [same.top]; exact here.exec,
          by rw [hcell, lpOf, same.top]; exact here.locals, by rw [hcell2, lpOf, same.top]; exact here.stack⟩

/-! ## The machine and the calls -/

/-- A call is of a method that is loaded. -/
def FrameOk (P : Program) (parsed : List (MRef × List Cmd)) (f : Frame) : Prop :=
  (parsed.lookup (.meth f.m)).isSome ∧ ∃ M, P.methods[f.m]? = some M ∧ f.args.length = M.units ∧ f.locals.length = M.locals

/-- The machine holds these calls. -/
structure Sim (P : Program) (s : Spec.St) (c : St) : Prop where
  inv : Inv P c.parsed c.cache
  lay : Lay P c.mem s.frames
  top : c.top = topOf s.frames
  lp : c.lp = lpTop s.frames
  cur : c.cur = retOf s.frames
  ok : ∀ f ∈ s.frames, FrameOk P c.parsed f
  fresh : c.fresh = s.fresh
  out : c.out = s.out
  halted : c.halted = s.halted

theorem FrameOk.mono {P : Program} {p p' : List (MRef × List Cmd)} {f : Frame}
    (h : ∀ x, (p.lookup x).isSome → (p'.lookup x).isSome) (ok : FrameOk P p f) : FrameOk P p' f := ⟨h _ ok.1, ok.2⟩

theorem store_ok {P : Program} {p : List (MRef × List Cmd)} {v : Val} : ∀ {fs fs' : List Frame} {d : Nat} {k : Place},
    (∀ f ∈ fs, FrameOk P p f) → Spec.store fs d k v = some fs' → ∀ f ∈ fs', FrameOk P p f
  | [], _, _, _, _, h => by simp [Spec.store] at h
  | f :: r, fs', d, k, ok, h => by
    rw [store_cons] at h
    have okf := ok f (by simp)
    have okr : ∀ g ∈ r, FrameOk P p g := fun g hg => ok g (by simp [hg])
    split at h
    · cases k with
      | loc i =>
        simp only at h
        split at h
        · simp only [Option.some.injEq] at h
          subst h
          intro g hg
          rcases List.mem_cons.1 hg with rfl | hg
          · obtain ⟨h1, M, h2, h3, h4⟩ := okf
            exact ⟨h1, M, h2, h3, by simpa using h4⟩
          · exact okr g hg
        · simp at h
      | arg i =>
        simp only at h
        split at h
        · simp only [Option.some.injEq] at h
          subst h
          intro g hg
          rcases List.mem_cons.1 hg with rfl | hg
          · obtain ⟨h1, M, h2, h3, h4⟩ := okf
            exact ⟨h1, M, h2, by simpa using h3, h4⟩
          · exact okr g hg
        · simp at h
    · cases hr : Spec.store r d k v with
      | none => simp [hr] at h
      | some r' =>
        simp only [hr, Option.map_some, Option.some.injEq] at h
        subst h
        intro g hg
        rcases List.mem_cons.1 hg with rfl | hg
        · exact okf
        · exact store_ok okr hr g hg

theorem store_cell {v : Val} : ∀ {fs fs' : List Frame} {d : Nat} {k : Place}, Spec.store fs d k v = some fs' →
    ∃ a, cell fs d k = some a
  | [], _, _, _, h => by simp [Spec.store] at h
  | f :: r, fs', d, k, h => by
    rw [store_cons] at h
    rw [cell_cons]
    split at h
    · rename_i e
      rw [if_pos e]
      cases k <;> simp only at h ⊢ <;> split at h <;> first | (rename_i hi; rw [if_pos hi]; exact ⟨_, rfl⟩) | simp at h
    · rename_i e
      rw [if_neg e]
      cases hr : Spec.store r d k v with
      | none => simp [hr] at h
      | some r' => exact store_cell hr

theorem load_cell {v : Val} : ∀ {fs : List Frame} {d : Nat} {k : Place}, Spec.load fs d k = some v → ∃ a, cell fs d k = some a
  | [], _, _, h => by simp [Spec.load] at h
  | f :: r, d, k, h => by
    rw [load_cons] at h
    rw [cell_cons]
    split at h
    · rename_i e
      rw [if_pos e]
      cases k with
      | loc i =>
        simp only at h ⊢
        have : i < f.locals.length := by
          cases hl : f.locals[i]? with
          | none => simp [hl] at h
          | some x => exact (List.getElem?_eq_some_iff.1 hl).1
        rw [if_pos this]
        exact ⟨_, rfl⟩
      | arg i =>
        simp only at h ⊢
        rw [if_pos (List.getElem?_eq_some_iff.1 h).1]
        exact ⟨_, rfl⟩
    · rename_i e
      rw [if_neg e]
      exact load_cell h

/-- The head of the calls with another `pc`. -/
theorem Sim.pc {P : Program} {s : Spec.St} {f : Frame} {r : List Frame} {c : St} (h : Sim P { s with frames := f :: r } c)
    (pc : Nat) : Sim P { s with frames := { f with pc := pc } :: r } { c with cur := (.meth f.m, pc) } := by
  refine ⟨h.inv, ⟨h.lay.1, ?_⟩, h.top, h.lp, rfl, ?_, h.fresh, h.out, h.halted⟩
  · have := h.lay.2
    exact ⟨this.args, this.lp, this.code, this.exec, this.locals, this.stack⟩
  · intro g hg
    rcases List.mem_cons.1 hg with rfl | hg
    · exact h.ok f (by simp)
    · exact h.ok g (by simp [hg])

/-- The head of the calls with other operands. -/
theorem ok_stack {P : Program} {p : List (MRef × List Cmd)} {f : Frame} {r : List Frame} (h : ∀ g ∈ f :: r, FrameOk P p g)
    (st : List Val) : ∀ g ∈ { f with stack := st } :: r, FrameOk P p g := by
  intro g hg
  rcases List.mem_cons.1 hg with rfl | hg
  · exact h f (by simp)
  · exact h g (by simp [hg])

theorem cell_stack (f : Frame) (r : List Frame) (st : List Val) : cell ({ f with stack := st } :: r) = cell (f :: r) := by
  funext d k
  simp only [cell_cons]
  rfl

theorem Sim.push {P : Program} {s : Spec.St} {f : Frame} {r : List Frame} {c : St} (h : Sim P { s with frames := f :: r } c)
    {v : Val} {w : Unit64} (hv : Rel P (cell (f :: r)) v w) :
    Sim P { s with frames := { f with stack := v :: f.stack } :: r } (c.push w) := by
  have htop : c.top = topOf (f :: r) := h.top
  have agree : ∀ x, x < topOf (f :: r) → upd c.mem c.top w x = c.mem x := fun x hx => upd_ne (by omega)
  have lay := h.lay.mem agree
  refine ⟨h.inv, ⟨lay.1, ?_⟩, ?_, h.lp, h.cur, ok_stack h.ok _, h.fresh, h.out, h.halted⟩
  · have here := lay.2
    refine ⟨here.args, here.lp, here.code, here.exec, here.locals, ?_⟩
    show Stk P (cell ({ f with stack := v :: f.stack } :: r)) _ _ (v :: f.stack)
    rw [cell_stack]
    refine ⟨?_, here.stack⟩
    have : lpOf f r + f.locals.length + f.stack.length = c.top := by rw [htop]; simp only [topOf, size, lpOf]; omega
    show Rel P _ v (upd c.mem c.top w (lpOf f r + f.locals.length + f.stack.length))
    rw [this, upd_same]
    exact hv
  · show c.top + 1 = _
    rw [htop]
    simp only [topOf, size, List.length_cons]
    omega

theorem Sim.pop {P : Program} {s : Spec.St} {f : Frame} {r : List Frame} {c : St} (h : Sim P { s with frames := f :: r } c)
    {v : Val} {st : List Val} (hs : f.stack = v :: st) :
    1 ≤ c.top ∧ Rel P (cell (f :: r)) v (c.mem (c.top - 1)) ∧
      Sim P { s with frames := { f with stack := st } :: r } { c with top := c.top - 1 } := by
  have htop : c.top = topOf (f :: r) := h.top
  have here := h.lay.2
  have hst := here.stack
  rw [hs] at hst
  have hpos : c.top = lpOf f r + f.locals.length + st.length + 1 := by
    rw [htop]; simp only [topOf, size, lpOf, hs, List.length_cons]; omega
  refine ⟨by omega, ?_, h.inv, ⟨h.lay.1, ?_⟩, ?_, h.lp, h.cur, ok_stack h.ok _, h.fresh, h.out, h.halted⟩
  · have := hst.1
    rwa [show c.top - 1 = lpOf f r + f.locals.length + st.length from by omega]
  · refine ⟨here.args, here.lp, here.code, here.exec, here.locals, ?_⟩
    show Stk P (cell ({ f with stack := st } :: r)) _ _ st
    rw [cell_stack]
    exact hst.2
  · show c.top - 1 = _
    rw [hpos]
    simp only [topOf, size, lpOf]
    omega

/-- Dropping operands. -/
theorem Sim.drop {P : Program} {s : Spec.St} {f : Frame} {r : List Frame} {c : St} (h : Sim P { s with frames := f :: r } c)
    {n : Nat} (hn : n ≤ f.stack.length) :
    n ≤ c.top ∧ topOf ({ f with stack := f.stack.drop n } :: r) = c.top - n ∧
      Lay P c.mem ({ f with stack := f.stack.drop n } :: r) := by
  have htop : c.top = topOf (f :: r) := h.top
  have here := h.lay.2
  refine ⟨?_, ?_, h.lay.1, ?_⟩
  · rw [htop]; simp only [topOf, size]; omega
  · rw [htop]; simp only [topOf, size, List.length_drop]; omega
  · refine ⟨here.args, here.lp, here.code, here.exec, here.locals, ?_⟩
    show Stk P (cell ({ f with stack := f.stack.drop n } :: r)) _ _ (f.stack.drop n)
    rw [cell_stack]
    exact here.stack.drop n

theorem Sim.store {P : Program} {s : Spec.St} {fs fs' : List Frame} {c : St} (h : Sim P { s with frames := fs } c)
    {d : Nat} {k : Place} {v : Val} {w : Unit64} {a : Nat} {cl : Nat → Place → Option Nat} (hv : v.plain = true)
    (hw : Rel P cl v w) (hst : Spec.store fs d k v = some fs') (hc : cell fs d k = some a) :
    Sim P { s with frames := fs' } { c with mem := upd c.mem a w } ∧ Same fs fs' := by
  obtain ⟨lay, same⟩ := store_lay hv hw h.lay hst hc
  exact ⟨⟨h.inv, lay, h.top.trans same.top.symm, h.lp.trans same.lp.symm, h.cur.trans same.ret.symm, store_ok h.ok hst, h.fresh,
    h.out, h.halted⟩, same⟩

/-- A parameter of the innermost call. -/
theorem Sim.arg {P : Program} {s : Spec.St} {f : Frame} {r : List Frame} {c : St} (h : Sim P { s with frames := f :: r } c)
    {M : Meth} (hM : P.methods[f.m]? = some M) :
    f.args.length = M.units ∧ f.locals.length = M.locals ∧ c.lp = topOf r + M.units + 3 ∧
      (∀ i, i < M.units → M.units - i + stub ≤ c.lp ∧ c.lp - (M.units - i + stub) = topOf r + i) := by
  obtain ⟨_, N, hN, h1, h2⟩ := h.ok f (by simp)
  have : N = M := Option.some.inj (hN.symm.trans hM)
  subst this
  have hlp : c.lp = topOf r + N.units + 3 := by rw [h.lp]; simp only [lpTop, lpOf, h1]
  refine ⟨h1, h2, hlp, ?_⟩
  intro i hi
  simp only [stub]
  omega

theorem topOf_pos {f : Frame} {r : List Frame} : topOf (f :: r) = lpOf f r + f.locals.length + f.stack.length := by
  simp only [topOf, size, lpOf]; omega

/-- A new call on top of the others. -/
theorem lay_new {P : Program} {mem : Nat → Unit64} {fs : List Frame} (lay : Lay P mem fs) {m : Nat} {args : List Val} (L : Nat)
    (hargs : ∀ i v, args[i]? = some v → Rel P (cell fs) v (mem (topOf fs + i)))
    (h1 : mem (topOf fs + args.length) = .addr (lpTop fs))
    (h2 : mem (topOf fs + args.length + 1) = .code (retOf fs).1 (retOf fs).2)
    (h3 : mem (topOf fs + args.length + 2) = .exec (.meth m)) :
    Lay P mem (⟨m, 0, args, List.replicate L none, []⟩ :: fs) := by
  refine ⟨lay, hargs, h1, h2, h3, ?_, trivial⟩
  intro i v e
  simp only [List.getElem?_replicate] at e
  split at e <;> simp at e

/-- The arguments of a call are the operands on top. -/
theorem args_rel {P : Program} {s : Spec.St} {f : Frame} {r : List Frame} {c : St} (h : Sim P { s with frames := f :: r } c)
    {n : Nat} (hn : n ≤ f.stack.length) {i : Nat} {v : Val} (e : (f.stack.take n).reverse[i]? = some v) :
    i < n ∧ Rel P (cell (f :: r)) v (c.mem (c.top - n + i)) := by
  have hl : (f.stack.take n).length = n := by simp; omega
  have hi : i < n := by
    have := (List.getElem?_eq_some_iff.1 e).1
    simpa [hl] using this
  refine ⟨hi, ?_⟩
  rw [List.getElem?_reverse (by omega), hl, List.getElem?_take, if_pos (by omega)] at e
  have := h.lay.2.stack.get e
  have htop : c.top = topOf (f :: r) := h.top
  rw [topOf_pos] at htop
  rwa [show c.top - n + i = lpOf f r + f.locals.length + f.stack.length - 1 - (n - 1 - i) from by omega]

theorem enter_eq {P : Program} (fine : Fine P) {c : St} (inv : Inv P c.parsed c.cache) {m : MRef} {M : Meth}
    (hm : P.info m = some M) :
    ∃ parsed' cache', c.enter P m = some { c with
        mem := upd (upd (upd c.mem c.top (.addr c.lp)) (c.top + 1) (.code c.cur.1 c.cur.2)) (c.top + 2) (.exec m)
        top := c.top + 3 + M.locals, lp := c.top + 3, cur := (m, 0), parsed := parsed', cache := cache' } ∧
      Inv P parsed' cache' ∧ (parsed'.lookup m).isSome ∧ ∀ x, (c.parsed.lookup x).isSome → (parsed'.lookup x).isSome := by
  obtain ⟨cs, parsed', cache', hl, inv', hp, hmono⟩ := load_ok fine inv hm
  exact ⟨parsed', cache', by simp [St.enter, hm, hl], inv', hp, hmono⟩

/-- `push_calling` makes a new call. -/
theorem Sim.enter {P : Program} (fine : Fine P) {s : Spec.St} {f : Frame} {r : List Frame} {c : St}
    (h : Sim P { s with frames := f :: r } c) {m : Nat} {M : Meth} (hM : P.methods[m]? = some M)
    (hn : M.units ≤ f.stack.length) :
    ∃ c', c.enter P (.meth m) = some c' ∧ Sim P { s with frames :=
      ⟨m, 0, (f.stack.take M.units).reverse, List.replicate M.locals none, []⟩ ::
        { f with stack := f.stack.drop M.units } :: r } c' := by
  have hinfo : P.info (.meth m) = some M := hM
  obtain ⟨parsed', cache', hl, inv, hp, hmono⟩ := enter_eq fine h.inv hinfo
  obtain ⟨htop, hfs, lay⟩ := h.drop hn
  have hal : (f.stack.take M.units).reverse.length = M.units := by simp; omega
  have hlp : lpTop ({ f with stack := f.stack.drop M.units } :: r) = c.lp := h.lp.symm
  have hcur : retOf ({ f with stack := f.stack.drop M.units } :: r) = c.cur := h.cur.symm
  refine ⟨_, hl, inv, ?_, ?_, ?_, rfl, ?_, h.fresh, h.out, h.halted⟩
  · refine lay_new (lay.mem ?_) _ ?_ ?_ ?_ ?_
    · intro x hx
      rw [hfs] at hx
      simp only
      rw [upd_ne (by omega), upd_ne (by omega), upd_ne (by omega)]
    · intro i v e
      obtain ⟨hi, hr⟩ := args_rel h hn e
      rw [cell_stack, hfs]
      simp only
      rw [upd_ne (by omega), upd_ne (by omega), upd_ne (by omega)]
      exact hr
    · simp only
      rw [hal, hfs, hlp, show c.top - M.units + M.units = c.top from by omega, upd_ne (by omega), upd_ne (by omega), upd_same]
    · simp only
      rw [hal, hfs, hcur, show c.top - M.units + M.units = c.top from by omega, upd_ne (by omega), upd_same]
    · simp only
      rw [hal, hfs, show c.top - M.units + M.units = c.top from by omega, upd_same]
  · simp only [topOf_pos (r := _ :: r), lpOf, hfs, hal, List.length_replicate, List.length_nil]
    omega
  · simp only [lpTop, lpOf, hfs, hal]
    omega
  · intro g hg
    rcases List.mem_cons.1 hg with rfl | hg
    · exact ⟨hp, M, hM, hal, by simp⟩
    · exact (ok_stack h.ok _ g hg).mono hmono

end Verif.Calls
