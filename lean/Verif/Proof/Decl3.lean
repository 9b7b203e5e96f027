import Verif.Proof.Decl2

/-! # Lemmas on the member a member hides -/

namespace Verif.Decl

open Spec

theorem above_det {ds : Decls} {t : Nat} : ∀ {n c c' : Nat}, Above ds t n c → Above ds t n c' → c = c'
  | 0, c, c', h, h' => by
    cases h with
    | base h => cases h' with
      | base h' => rw [h] at h'; simpa using h'
  | n + 1, c, c', h, h' => by
    cases h with
    | up h1 h2 => cases h' with
      | up h1' h2' =>
        have := above_det h1 h1'
        subst this
        rw [h2] at h2'
        simpa using h2'

theorem above_prefix {ds : Decls} {t : Nat} : ∀ {n c : Nat}, Above ds t n c →
    ∀ k, k ≤ n → ∃ c', Above ds t k c'
  | 0, c, h, k, hk => by
    have : k = 0 := by omega
    subst this
    exact ⟨c, h⟩
  | n + 1, c, h, k, hk => by
    by_cases he : k = n + 1
    · subst he
      exact ⟨c, h⟩
    · cases h with
      | up h1 _ => exact above_prefix h1 k (by omega)

theorem above_shift {ds : Decls} {t i j c : Nat} (hi : Above ds t i c) (hj : Above ds t j c) :
    ∀ (k c' : Nat), Above ds t (i + k) c' → Above ds t (j + k) c'
  | 0, c', h => by
    have := above_det h hi
    subst this
    exact hj
  | k + 1, c', h => by
    cases h with
    | up h1 h2 => exact Above.up (above_shift hi hj k _ h1) h2

theorem above_forever {ds : Decls} {t i j c : Nat} (hij : i < j) (hi : Above ds t i c)
    (hj : Above ds t j c) : ∀ n, ∃ c', Above ds t n c' := by
  intro n
  induction n using Nat.strongRecOn with
  | ind n ih =>
    by_cases hn : n ≤ j
    · exact above_prefix hj n hn
    · obtain ⟨c', h'⟩ := ih (n - (j - i)) (by omega)
      have he : n - (j - i) = i + (n - j) := by omega
      rw [he] at h'
      have := above_shift hi hj _ _ h'
      have he2 : j + (n - j) = n := by omega
      rw [he2] at this
      exact ⟨c', this⟩

/-- The class `n` steps up, if there is one, is what the walk looks at. -/
def Current (ds : Decls) (t : Nat) : Nat → Option Nat → Prop
  | 0, cur => (ds t).base = cur
  | n + 1, cur => ∃ c, Above ds t n c ∧ (ds c).base = cur

theorem above_of_current {ds : Decls} {t n c : Nat} (h : Current ds t n (some c)) : Above ds t n c := by
  cases n with
  | zero => exact Above.base h
  | succ n =>
    obtain ⟨c', h1, h2⟩ := h
    exact Above.up h1 h2

theorem current_none {ds : Decls} {t : Nat} : ∀ {n : Nat}, Current ds t n none →
    ∀ k c, n ≤ k → ¬ Above ds t k c
  | 0, h, k, c, _, ha => by
    obtain ⟨c', h'⟩ := above_prefix ha 0 (by omega)
    cases h' with
    | base hb => rw [show (ds t).base = none from h] at hb; simp at hb
  | n + 1, h, k, c, hk, ha => by
    obtain ⟨c0, h1, h2⟩ := h
    obtain ⟨c', h'⟩ := above_prefix ha (n + 1) hk
    cases h' with
    | up h1' hb =>
      have := above_det h1 h1'
      subst this
      rw [h2] at hb
      simp at hb

theorem baseMember_spec (ds : Decls) (t : Nat) (m : Member) (total : Nat)
    (hend : ∀ c, ¬ Above ds t total c) :
    ∀ (fuel n : Nat) (walked : List Nat) (cur : Option Nat), Current ds t n cur → n + fuel = total →
      (∀ x ∈ walked, ∃ k, k < n ∧ Above ds t k x) →
      (∀ k c, k < n → Above ds t k c → checkDuplicate (ds c).members m = .none) →
      baseMember ds m fuel walked cur ≠ .undefined →
      (∀ b, baseMember ds m fuel walked cur = .some b → Hides ds t m b) ∧
      (baseMember ds m fuel walked cur = .none →
        ∀ k c, Above ds t k c → checkDuplicate (ds c).members m = .none)
  | fuel, n, walked, none, hc, _, _, hn, _ => by
    have he : baseMember ds m fuel walked none = .none := by
      cases fuel <;> rfl
    rw [he]
    refine ⟨by simp, fun _ k c ha => ?_⟩
    by_cases hk : k < n
    · exact hn k c hk ha
    · exact absurd ha (current_none hc k c (by omega))
  | 0, n, walked, some c, hc, hf, _, _, _ => by
    have : n = total := by omega
    subst this
    exact absurd (above_of_current hc) (hend c)
  | fuel + 1, n, walked, some c, hc, hf, hw, hn, hu => by
    have hac := above_of_current hc
    have hnw : c ∉ walked := fun hm => by
      obtain ⟨k, hk, hk'⟩ := hw c hm
      obtain ⟨c', h'⟩ := above_forever hk hk' hac total
      exact hend c' h'
    unfold baseMember at hu ⊢
    rw [if_neg (by simpa using hnw)] at hu ⊢
    cases hd : checkDuplicate (ds c).members m with
    | some b =>
      refine ⟨fun b' hb' => ?_, by simp⟩
      simp only [Found.some.injEq] at hb'
      subst hb'
      exact ⟨n, c, hac, hd, fun k c' hk ha => hn k c' hk ha⟩
    | undefined => simp [hd] at hu
    | none =>
      rw [hd] at hu
      refine baseMember_spec ds t m total hend fuel (n + 1) (c :: walked) (ds c).base
        ⟨c, hac, rfl⟩ (by omega) (fun x hx => ?_) (fun k c' hk ha => ?_) hu
      · rcases List.mem_cons.1 hx with rfl | hx
        · exact ⟨n, by omega, hac⟩
        · obtain ⟨k, hk, h'⟩ := hw x hx
          exact ⟨k, by omega, h'⟩
      · by_cases hkn : k = n
        · subst hkn
          have := above_det ha hac
          subst this
          exact hd
        · exact hn k c' (by omega) ha

theorem hides_det {ds : Decls} {t : Nat} {m b b' : Member} (h : Hides ds t m b) (h' : Hides ds t m b') :
    b = b' := by
  obtain ⟨n, c, h1, h2, h3⟩ := h
  obtain ⟨n', c', h1', h2', h3'⟩ := h'
  rcases Nat.lt_trichotomy n n' with hn | hn | hn
  · have := h3' n c hn h1
    rw [h2] at this
    simp at this
  · subst hn
    have := above_det h1 h1'
    subst this
    rw [h2] at h2'
    simpa using h2'
  · have := h3 n' c' hn h1'
    rw [h2'] at this
    simp at this

end Verif.Decl
