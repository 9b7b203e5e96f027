import Verif.Spec.RowHeap

/-! # Helper lemmas for C30 -/

namespace Verif.RowHeap

variable {α : Type}

theorem rc_div {rs r c : Nat} (h : c < rs) : (r * rs + c) / rs = r := by
  rw [Nat.mul_comm, Nat.mul_add_div (by omega), Nat.div_eq_of_lt h, Nat.add_zero]

theorem rc_mod {rs r c : Nat} (h : c < rs) : (r * rs + c) % rs = c := by
  rw [Nat.mul_comm, Nat.mul_add_mod, Nat.mod_eq_of_lt h]

theorem rc_split (rs i : Nat) (h : 0 < rs) : i = i / rs * rs + i % rs ∧ i % rs < rs :=
  ⟨by rw [Nat.mul_comm]; exact (Nat.div_add_mod i rs).symm, Nat.mod_lt _ h⟩

/-- Order of places is the order of rows, then of columns. -/
theorem rc_lt {rs r c r' c' : Nat} (hc : c < rs) (h : r < r') : r * rs + c < r' * rs + c' := by
  have := Nat.mul_le_mul_right rs (show r + 1 ≤ r' from h)
  rw [Nat.add_mul] at this
  omega

/-- The heap holds the list. -/
structure Rep (rs : Nat) (h : RH α) (l : List α) : Prop where
  rs_eq : h.rs = rs
  size : h.size = l.length
  cells : ∀ r c, c < rs → r * rs + c < l.length → h.cell r c = l[r * rs + c]?
  none_ : h.cur = none → l.length = 0
  pos : ∀ r, h.cur = some r → r * rs + h.col = l.length ∧ h.col ≤ rs ∧ r < h.rows

theorem rep_empty (rs : Nat) : Rep rs (RH.empty rs : RH α) [] :=
  ⟨rfl, rfl, by simp, fun _ => rfl, (by intro r h; cases h)⟩

theorem Rep.at_ {rs : Nat} (h0 : 0 < rs) {h : RH α} {l : List α} (hr : Rep rs h l) {i : Nat}
    (hi : i < l.length) : h.at_ i = l[i]? := by
  obtain ⟨h1, h2⟩ := rc_split rs i h0
  rw [RH.at_, hr.rs_eq, hr.cells _ _ h2 (by omega), ← h1]

theorem Rep.toList {rs : Nat} (h0 : 0 < rs) {h : RH α} {l : List α} (hr : Rep rs h l) :
    h.toList = l.map some := by
  rw [RH.toList, hr.size]
  apply List.ext_getElem?
  intro i
  by_cases hi : i < l.length
  · simp only [List.getElem?_map, List.getElem?_range hi, Option.map_some, hr.at_ h0 hi]
    simp [hi]
  · rw [List.getElem?_eq_none (by simp; omega), List.getElem?_eq_none (by simp; omega)]

/-- What `__current_hole` does. -/
structure Hole (rs : Nat) (h h' : RH α) (n r c : Nat) : Prop where
  rs_eq : h'.rs = rs
  size : h'.size = n + 1
  cell : h'.cell = h.cell
  cur : h'.cur = some r
  col : h'.col = c + 1
  place : r * rs + c = n
  lt : c < rs
  rows : r < h'.rows

theorem Rep.hole {rs : Nat} (h0 : 0 < rs) {h : RH α} {l : List α} (hr : Rep rs h l) :
    ∃ h' r c, h.hole = (h', r, c) ∧ Hole rs h h' l.length r c := by
  rw [RH.hole]
  cases hc : h.cur with
  | none =>
    have hl := hr.none_ hc
    simp only
    by_cases hlt : 0 < h.rows
    · rw [if_pos hlt]
      exact ⟨_, _, _, rfl, ⟨hr.rs_eq, by simp [hr.size], rfl, rfl, rfl, by omega, h0, hlt⟩⟩
    · rw [if_neg hlt]
      have : h.rows = 0 := by omega
      exact ⟨_, _, _, rfl, ⟨hr.rs_eq, by simp [hr.size], rfl, rfl, rfl, by rw [this]; omega, h0, by simp⟩⟩
  | some r =>
    obtain ⟨p1, p2, p3⟩ := hr.pos r hc
    simp only [hr.rs_eq]
    by_cases hge : h.col ≥ rs
    · rw [if_pos hge]
      have hl : (r + 1) * rs + 0 = l.length := by rw [Nat.add_mul]; omega
      by_cases hlt : r + 1 < h.rows
      · rw [if_pos hlt]
        exact ⟨_, _, _, rfl, ⟨rfl, by simp [hr.size], rfl, rfl, rfl, hl, h0, hlt⟩⟩
      · rw [if_neg hlt]
        have : h.rows = r + 1 := by omega
        exact ⟨_, _, _, rfl, ⟨rfl, by simp [hr.size], rfl, rfl, rfl, by rw [this]; exact hl, h0, by simp⟩⟩
    · rw [if_neg hge]
      exact ⟨_, _, _, rfl, ⟨rfl, by simp [hr.size], rfl, rfl, rfl, p1, by omega, p3⟩⟩

theorem Rep.newObj {rs : Nat} (h0 : 0 < rs) {h : RH α} {l : List α} (hr : Rep rs h l) (x : α) :
    Rep rs (h.newObj x) (l ++ [x]) := by
  obtain ⟨h', r, c, e, hh⟩ := hr.hole h0
  rw [RH.newObj, e]
  refine ⟨hh.rs_eq, by simp [RH.store, hh.size], ?_, ?_, ?_⟩
  · intro r' c' hc' hlt
    simp only [RH.store, hh.cell]
    by_cases he : r' = r ∧ c' = c
    · rw [if_pos he, he.1, he.2, hh.place]
      simp
    · rw [if_neg he]
      have hne : r' * rs + c' ≠ l.length := by
        intro hn
        apply he
        rw [← hh.place] at hn
        exact ⟨by rw [← rc_div hc' (r := r'), hn, rc_div hh.lt], by rw [← rc_mod hc' (r := r'), hn, rc_mod hh.lt]⟩
      have hlt' : r' * rs + c' < l.length := by simp at hlt; omega
      rw [hr.cells r' c' hc' hlt', List.getElem?_append_left hlt']
  · intro hn
    simp only [RH.store, hh.cur] at hn
    cases hn
  · intro r' hr'
    simp only [RH.store, hh.cur, Option.some.injEq] at hr'
    subst hr'
    simp only [RH.store, hh.col, List.length_append, List.length_singleton]
    have := hh.place
    have := hh.lt
    exact ⟨by omega, by omega, hh.rows⟩

theorem Rep.clear {rs : Nat} {h : RH α} {l : List α} (hr : Rep rs h l) : Rep rs h.clear [] :=
  ⟨hr.rs_eq, rfl, by simp, fun _ => rfl, (by intro r h; cases h)⟩

/-! ## Copying -/

/-- Two heaps that differ in their cells only. -/
structure Same (h h' : RH α) : Prop where
  rs : h'.rs = h.rs
  rows : h'.rows = h.rows
  cur : h'.cur = h.cur
  col : h'.col = h.col
  size : h'.size = h.size

theorem Same.refl (h : RH α) : Same h h := ⟨rfl, rfl, rfl, rfl, rfl⟩

theorem Same.trans {a b c : RH α} (h : Same a b) (h' : Same b c) : Same a c :=
  ⟨h'.rs.trans h.rs, h'.rows.trans h.rows, h'.cur.trans h.cur, h'.col.trans h.col, h'.size.trans h.size⟩

/-- A copy inside the rows. -/
theorem copy_ok (h : RH α) (dr dc sr sc n : Nat) (hdr : dr < h.rows) (hsr : sr < h.rows)
    (hd : dc + n ≤ h.rs) (hs : sc + n ≤ h.rs) :
    ∃ h', h.copy dr dc sr sc n = .ok h' ∧ Same h h' ∧
      ∀ r c, h'.cell r c = if r = dr ∧ dc ≤ c ∧ c < dc + n then h.cell sr (c - dc + sc) else h.cell r c := by
  rw [RH.copy, if_neg (by simp [hdr, hsr])]
  by_cases hn : n = 0
  · rw [if_pos (by omega)]
    refine ⟨h, rfl, .refl h, ?_⟩
    intro r c
    rw [if_neg (by omega)]
  · rw [if_neg (by omega), if_pos (by omega)]
    refine ⟨_, rfl, ⟨rfl, rfl, rfl, rfl, rfl⟩, ?_⟩
    intro r c
    simp only
    by_cases hc : r = dr ∧ dc ≤ c ∧ c < dc + n
    · rw [if_pos hc, if_pos (by omega)]
      congr 1
      omega
    · rw [if_neg hc, if_neg (by omega)]

theorem shiftRows_ok (fromRow rs : Nat) (h0 : 0 < rs) : ∀ (n : Nat) (h : RH α), h.rs = rs →
    fromRow + n + 1 < h.rows →
    ∃ h', h.shiftRows fromRow n = .ok h' ∧ Same h h' ∧
      ∀ r c, c < rs → h'.cell r c =
        if c = 0 ∧ fromRow + 1 < r ∧ r ≤ fromRow + n + 1 then h.cell (r - 1) (rs - 1)
        else if 0 < c ∧ fromRow < r ∧ r ≤ fromRow + n then h.cell r (c - 1)
        else h.cell r c
  | 0, h, hrs, _ => by
    refine ⟨h, rfl, .refl h, ?_⟩
    intro r c hc
    rw [if_neg (by omega), if_neg (by omega)]
  | n + 1, h, hrs, hrows => by
    obtain ⟨h1, e1, s1, c1⟩ := copy_ok h (fromRow + n + 1 + 1) 0 (fromRow + n + 1) (rs - 1) 1 (by omega) (by omega)
      (by omega) (by omega)
    obtain ⟨h2, e2, s2, c2⟩ := copy_ok h1 (fromRow + n + 1) 1 (fromRow + n + 1) 0 (rs - 1)
      (by rw [s1.rows]; omega) (by rw [s1.rows]; omega) (by rw [s1.rs]; omega) (by rw [s1.rs]; omega)
    have s12 := s1.trans s2
    obtain ⟨h3, e3, s3, c3⟩ := shiftRows_ok fromRow rs h0 n h2 (by rw [s12.rs, hrs]) (by rw [s12.rows]; omega)
    refine ⟨h3, ?_, s12.trans s3, ?_⟩
    · rw [RH.shiftRows]
      have i1 : ((h.rs : Int) - 1) = ((rs - 1 : Nat) : Int) := by omega
      have i2 : ((h1.rs : Int) - 1) = ((rs - 1 : Nat) : Int) := by rw [s1.rs]; omega
      rw [i1]
      have e1' : h.copy (fromRow + n + 1 + 1) 0 (fromRow + n + 1) ((rs - 1 : Nat) : Int) 1 = .ok h1 := e1
      rw [e1']
      have e2' : h1.copy (fromRow + n + 1) 1 (fromRow + n + 1) 0 ((h1.rs : Int) - 1) = .ok h2 := by
        rw [i2]; exact e2
      simp only [bind, Except.bind]
      rw [e2']
      exact e3
    · intro r c hc
      rw [c3 r c hc]
      by_cases k1 : c = 0 ∧ fromRow + 1 < r ∧ r ≤ fromRow + n + 1
      · rw [if_pos k1, if_pos (by omega), c2, if_neg (by omega), c1, if_neg (by omega)]
      · rw [if_neg k1]
        by_cases k2 : 0 < c ∧ fromRow < r ∧ r ≤ fromRow + n
        · rw [if_pos k2, if_neg (by omega), if_pos (by omega), c2, if_neg (by omega), c1, if_neg (by omega)]
        · rw [if_neg k2, c2]
          by_cases k3 : r = fromRow + n + 1 ∧ 1 ≤ c ∧ c < 1 + (rs - 1)
          · rw [if_pos k3, c1, if_neg (by omega), if_neg (by omega), if_pos (by omega), k3.1]
            congr 1
          · rw [if_neg k3, c1]
            by_cases k4 : r = fromRow + n + 1 + 1 ∧ 0 ≤ c ∧ c < 0 + 1
            · rw [if_pos k4, if_pos (by omega)]
              obtain ⟨k4, _⟩ := k4
              subst k4
              congr 1
              omega
            · rw [if_neg k4, if_neg (by omega), if_neg (by omega)]

/-- `__move_next` moves every object from the index on by one place. -/
theorem Rep.moveNext {rs : Nat} (h0 : 0 < rs) {h : RH α} {l : List α} (hr : Rep rs h l) {i : Nat}
    (hi : i < l.length) :
    ∃ h' g r0 c0, h.moveNext i = .ok (h', i / rs, i % rs) ∧ h.hole = (g, r0, c0) ∧
      Hole rs h g l.length r0 c0 ∧ Same g h' ∧
      ∀ r c, c < rs → r * rs + c < l.length + 1 → r * rs + c ≠ i →
        h'.cell r c = if r * rs + c < i then l[r * rs + c]? else l[r * rs + c - 1]? := by
  obtain ⟨g, r0, c0, e, hh⟩ := hr.hole h0
  obtain ⟨i1, i2⟩ := rc_split rs i h0
  have hplace := hh.place
  have hlt := hh.lt
  have hrows := hh.rows
  have hgrs := hh.rs_eq
  have hcell : ∀ r c, c < rs → r * rs + c < l.length → g.cell r c = l[r * rs + c]? := by
    intro r c hc hl; rw [hh.cell]; exact hr.cells r c hc hl
  have hfr : i / rs ≤ r0 := by
    have : i / rs ≤ l.length / rs := Nat.div_le_div_right (by omega)
    rw [← hplace, rc_div hlt] at this
    exact this
  rw [RH.moveNext, e]
  simp only [hgrs, hh.cur]
  generalize i / rs = fr at i1 hfr
  generalize i % rs = fc at i1 i2
  have icol : ((g.col : Int) - 1) = (c0 : Int) := by rw [hh.col]; omega
  rw [icol]
  by_cases hgt : r0 > fr
  · rw [if_pos hgt]
    obtain ⟨h1, e1, s1, c1⟩ := copy_ok g r0 1 r0 0 c0 hrows hrows (by omega) (by omega)
    obtain ⟨h2, e2, s2, c2⟩ := shiftRows_ok fr rs h0 (r0 - fr - 1) h1 (by rw [s1.rs, hgrs])
      (by rw [s1.rows]; omega)
    have s12 := s1.trans s2
    obtain ⟨h3, e3, s3, c3⟩ := copy_ok h2 (fr + 1) 0 fr (rs - 1) 1 (by rw [s12.rows]; omega)
      (by rw [s12.rows]; omega) (by rw [s12.rs]; omega) (by rw [s12.rs]; omega)
    have s13 := s12.trans s3
    obtain ⟨h4, e4, s4, c4⟩ := copy_ok h3 fr (fc + 1) fr fc (rs - fc - 1) (by rw [s13.rows]; omega)
      (by rw [s13.rows]; omega) (by rw [s13.rs]; omega) (by rw [s13.rs]; omega)
    refine ⟨h4, g, r0, c0, ?_, rfl, hh, s13.trans s4, ?_⟩
    · have e1' : g.copy r0 1 r0 0 (c0 : Int) = .ok h1 := e1
      have e3' : h2.copy (fr + 1) 0 fr ((h2.rs : Int) - 1) 1 = .ok h3 := by
        rw [s12.rs, hgrs, show ((rs : Int) - 1) = ((rs - 1 : Nat) : Int) by omega]; exact e3
      have e4' : h3.copy fr ((fc : Int) + 1) fr fc ((h3.rs : Int) - fc - 1) = .ok h4 := by
        rw [s13.rs, hgrs, show ((rs : Int) - fc - 1) = ((rs - fc - 1 : Nat) : Int) by omega]; exact e4
      simp only [bind, Except.bind, e1', e2, e3', e4']
      rfl
    · intro r c hc hl hne
      have hrle : r ≤ r0 := by
        have : (r * rs + c) / rs ≤ l.length / rs := Nat.div_le_div_right (by omega)
        rw [← hplace, rc_div hlt, rc_div hc] at this
        exact this
      by_cases k1 : r = fr
      · subst k1
        by_cases k2 : fc + 1 ≤ c
        · rw [c4, if_pos (by omega), c3, if_neg (by omega), c2 _ _ (by omega), if_neg (by omega), if_neg (by omega),
            c1, if_neg (by omega), if_neg (by omega),
            hcell _ _ (by omega) (by have := rc_lt (c := c) (c' := c0) hc hgt; omega)]
          congr 1
          omega
        · rw [c4, if_neg (by omega), c3, if_neg (by omega), c2 _ _ (by omega), if_neg (by omega), if_neg (by omega),
            c1, if_neg (by omega), if_pos (by omega),
            hcell _ _ hc (by have := rc_lt (c := c) (c' := c0) hc hgt; omega)]
      · rw [c4, if_neg (by omega)]
        by_cases k2 : r < fr
        · have := rc_lt (c' := fc) hc k2
          rw [c3, if_neg (by omega), c2 _ _ (by omega), if_neg (by omega), if_neg (by omega),
            c1, if_neg (by omega), if_pos (by omega), hcell _ _ hc (by omega)]
        · have hfr' : fr < r := by omega
          have := rc_lt (c' := c) i2 hfr'
          rw [if_neg (show ¬ r * rs + c < i by omega)]
          by_cases k3 : c = 0
          · subst k3
            by_cases k4 : r = fr + 1
            · subst k4
              rw [c3, if_pos (by omega), c2 _ _ (by omega), if_neg (by omega), if_neg (by omega),
                c1, if_neg (by omega), show 0 - 0 + (rs - 1) = rs - 1 by omega,
                hcell _ _ (by omega) (by rw [Nat.add_mul] at hl; omega)]
              congr 1
              rw [Nat.add_mul]
              omega
            · obtain ⟨q, rfl⟩ : ∃ q, r = q + 1 := ⟨r - 1, by omega⟩
              rw [c3, if_neg (by omega), c2 _ _ (by omega), if_pos (by omega), c1, if_neg (by omega),
                Nat.add_sub_cancel, hcell _ _ (by omega) (by rw [Nat.add_mul] at hl; omega)]
              congr 1
              rw [Nat.add_mul]
              omega
          · rw [c3, if_neg (by omega), c2 _ _ (by omega), if_neg (by omega)]
            by_cases k4 : r = r0
            · subst k4
              rw [if_neg (by omega), c1, if_pos (by omega), hcell _ _ (by omega) (by omega)]
              congr 1
              omega
            · rw [if_pos (by omega), c1, if_neg (by omega), hcell _ _ (by omega) (by omega)]
              congr 1
              omega
  · rw [if_neg hgt]
    have hfr0 : fr = r0 := by omega
    subst hfr0
    obtain ⟨h1, e1, s1, c1⟩ := copy_ok g fr (fc + 1) fr fc (c0 - fc) hrows hrows (by omega) (by omega)
    refine ⟨h1, g, fr, c0, ?_, rfl, hh, s1, ?_⟩
    · have e1' : g.copy fr ((fc : Int) + 1) fr fc ((c0 : Int) - fc) = .ok h1 := by
        rw [show ((c0 : Int) - fc) = ((c0 - fc : Nat) : Int) by omega]; exact e1
      simp only [bind, Except.bind, e1']
      rfl
    · intro r c hc hl hne
      rw [c1]
      by_cases k1 : r = fr ∧ fc + 1 ≤ c
      · obtain ⟨k1, k2⟩ := k1
        subst k1
        rw [if_pos (by omega), if_neg (by omega), hcell _ _ (by omega) (by omega)]
        congr 1
        omega
      · rw [if_neg (by omega)]
        have hlti : r * rs + c < i := by
          by_cases k2 : r = fr
          · subst k2; omega
          · by_cases k3 : r < fr
            · have := rc_lt (c' := fc) hc k3; omega
            · have := rc_lt (c' := c) hlt (show fr < r by omega); omega
        rw [if_pos hlti, hcell _ _ hc (by omega)]

theorem insert_getElem? (l : List α) (i : Nat) (x : α) (hi : i ≤ l.length) (k : Nat) :
    (l.take i ++ x :: l.drop i)[k]? = if k < i then l[k]? else if k = i then some x else l[k - 1]? := by
  have hlen : (l.take i).length = i := by simp; omega
  by_cases h1 : k < i
  · rw [if_pos h1, List.getElem?_append_left (by omega), List.getElem?_take, if_pos h1]
  · rw [if_neg h1, List.getElem?_append_right (by omega), hlen]
    by_cases h2 : k = i
    · subst h2; simp
    · rw [if_neg h2, show k - i = (k - i - 1) + 1 by omega, List.getElem?_cons_succ, List.getElem?_drop]
      congr 1
      omega

theorem Rep.insert {rs : Nat} (h0 : 0 < rs) {h : RH α} {l : List α} (hr : Rep rs h l) {i : Nat} (x : α)
    (hi : i ≤ l.length) : ∃ h', h.insert i x = .ok h' ∧ Rep rs h' (l.take i ++ x :: l.drop i) := by
  rw [RH.insert, hr.size]
  by_cases he : i = l.length
  · rw [if_pos he]
    refine ⟨_, rfl, ?_⟩
    have := hr.newObj h0 x
    rwa [he, List.take_length, List.drop_length]
  · rw [if_neg he, if_neg (by omega)]
    obtain ⟨h', g, r0, c0, e1, e2, hh, hs, hc⟩ := hr.moveNext h0 (show i < l.length by omega)
    rw [e1]
    obtain ⟨i1, i2⟩ := rc_split rs i h0
    have hlen : (l.take i ++ x :: l.drop i).length = l.length + 1 := by simp; omega
    refine ⟨_, rfl, ?_, ?_, ?_, ?_, ?_⟩
    · simp only [RH.store]; rw [hs.rs, hh.rs_eq]
    · simp only [RH.store]; rw [hs.size, hh.size, hlen]
    · intro r c hc' hl
      simp only [RH.store]
      rw [insert_getElem? l i x hi]
      by_cases hp : r = i / rs ∧ c = i % rs
      · obtain ⟨rfl, rfl⟩ := hp
        rw [if_pos ⟨rfl, rfl⟩, if_neg (by omega), if_pos (by omega)]
      · have hne : r * rs + c ≠ i := by
          intro he
          apply hp
          rw [← he, rc_div hc', rc_mod hc']
          exact ⟨rfl, rfl⟩
        rw [if_neg hp, hc r c hc' (by omega) hne, if_neg hne]
    · intro hn
      simp only [RH.store] at hn
      rw [hs.cur, hh.cur] at hn
      cases hn
    · intro r hcur
      simp only [RH.store] at hcur ⊢
      rw [hs.cur, hh.cur] at hcur
      cases hcur
      rw [hs.col, hh.col, hs.rows, hlen]
      have := hh.place
      have := hh.lt
      have := hh.rows
      omega

theorem Rep.delete {rs : Nat} (h0 : 0 < rs) {h : RH α} {l : List α} (hr : Rep rs h l) {i : Nat}
    (hi : i < l.length) (hrow : (i + 1) / rs = l.length / rs) (hcol : (i + 1) % rs ≠ 0) :
    ∃ h', h.delete i = .ok h' ∧ Rep rs h' (l.eraseIdx i) := by
  obtain ⟨i1, i2⟩ := rc_split rs (i + 1) h0
  rw [RH.delete, hr.size, if_neg (by omega), RH.movePrevious]
  cases hc : h.cur with
  | none => have := hr.none_ hc; omega
  | some row =>
    obtain ⟨p1, p2, p3⟩ := hr.pos row hc
    simp only [hr.rs_eq]
    obtain ⟨l1, l2⟩ := rc_split rs l.length h0
    rw [← hrow] at l1
    have hrle : (i + 1) / rs * rs + (i + 1) % rs ≤ l.length := by omega
    -- the current row is the row of the end
    have hrow' : row = (i + 1) / rs := by
      rcases Nat.lt_trichotomy row ((i + 1) / rs) with hlt | he | hlt
      · have := Nat.mul_le_mul_right rs (show row + 1 ≤ (i + 1) / rs from hlt)
        rw [Nat.add_mul] at this
        omega
      · exact he
      · have := rc_lt (c' := h.col) l2 hlt
        omega
    rw [← hrow'] at i1 l1 hrle ⊢
    generalize (i + 1) % rs = fc at *
    have hcoleq : h.col = l.length % rs := by omega
    rw [if_neg (by omega)]
    obtain ⟨h1, e1, s1, c1⟩ := copy_ok h row (fc - 1) row fc (h.col - fc) p3 p3
      (by rw [hr.rs_eq]; omega) (by rw [hr.rs_eq]; omega)
    have e1' : h.copy row ((fc : Int) - 1) row fc ((h.col : Int) - 1 - fc + 1) = .ok h1 := by
      rw [show ((fc : Int) - 1) = ((fc - 1 : Nat) : Int) by omega,
        show ((h.col : Int) - 1 - fc + 1) = ((h.col - fc : Nat) : Int) by omega]
      exact e1
    rw [e1']
    simp only [bind, Except.bind]
    rw [RH.shrink.eq_def, s1.col, if_neg (by omega)]
    have hlen : (l.eraseIdx i).length = l.length - 1 := by rw [List.length_eraseIdx, if_pos hi]
    refine ⟨_, rfl, ?_, ?_, ?_, ?_, ?_⟩
    · simp only; rw [s1.rs, hr.rs_eq]
    · simp only; rw [s1.size, hr.size, hlen]
    · intro r c hc' hl
      simp only
      rw [c1, List.getElem?_eraseIdx]
      by_cases k1 : r = row ∧ fc - 1 ≤ c
      · obtain ⟨rfl, k2⟩ := k1
        rw [if_pos (by omega), if_neg (by omega), hr.cells _ _ (by omega) (by omega)]
        congr 1
        omega
      · rw [if_neg (by omega)]
        have hlt : r * rs + c < i := by
          rcases Nat.lt_trichotomy r row with hlt | he | hlt
          · have := rc_lt (c' := 0) hc' hlt
            omega
          · subst he; omega
          · have := rc_lt (c' := c) l2 hlt
            omega
        rw [if_pos hlt, hr.cells _ _ hc' (by omega)]
    · intro hn
      simp only at hn
      rw [s1.cur, hc] at hn
      cases hn
    · intro r hcur
      simp only at hcur ⊢
      rw [s1.cur, hc] at hcur
      cases hcur
      rw [s1.rows, hlen]
      omega

theorem Rep.step {rs : Nat} (h0 : 0 < rs) {h : RH α} {l : List α} (hr : Rep rs h l) (o : Op α)
    (hg : Good rs l o) : ∃ h', h.step o = .ok h' ∧ Rep rs h' (onList l o) := by
  cases o with
  | new x => exact ⟨_, rfl, hr.newObj h0 x⟩
  | insert i x => exact hr.insert h0 x hg
  | delete i => exact hr.delete h0 hg.1 hg.2.1 hg.2.2
  | clear => exact ⟨_, rfl, hr.clear⟩

theorem Rep.run {rs : Nat} (h0 : 0 < rs) : ∀ (os : List (Op α)) {h : RH α} {l : List α}, Rep rs h l →
    AllGood rs l os → ∃ h', h.run os = .ok h' ∧ Rep rs h' (runList l os)
  | [], h, l, hr, _ => ⟨h, rfl, hr⟩
  | o :: os, h, l, hr, hg => by
    obtain ⟨h1, e1, r1⟩ := hr.step h0 o hg.1
    obtain ⟨h2, e2, r2⟩ := Rep.run h0 os r1 hg.2
    exact ⟨h2, by rw [RH.run, e1]; exact e2, r2⟩

end Verif.RowHeap
