/-
  The graphs of a grammar accept its sentences.
-/
import Verif.Proof.Gram5

namespace Verif.Gram.Proof

open Verif.Gram Verif.Gram.Spec

variable {X : Nat → Lang} {G : Grammar} {e : Env} {Γ : Nat → Option Graph}

theorem build_split {a : Alts} {n : Nat} {g : Graph} (h : build e n a = .ok g) :
    ∃ g0, exchange (layRule e (revise a)) n = .ok g0 ∧ g = g0.merge g0.nodes.length := by
  rw [build] at h
  cases hx : exchange (layRule e (revise a)) n with
  | error x => rw [hx] at h; simp at h
  | ok g0 => rw [hx] at h; simp only at h; cases h; exact ⟨g0, rfl, rfl⟩

theorem made_some (hm : Made G e Γ) {r : Nat} {g : Graph} (h : Γ r = some g) :
    ∃ a n, G r = some a ∧ build e n a = .ok g := by
  have := hm r
  cases hg : G r with
  | none => rw [hg] at this; simp only at this; rw [h] at this; simp at this
  | some a =>
    rw [hg] at this
    obtain ⟨n, g', hb, hg'⟩ := this
    rw [h] at hg'
    cases hg'
    exact ⟨a, n, rfl, hb⟩

theorem made_none (hm : Made G e Γ) {r : Nat} (h : Γ r = none) : G r = none := by
  have := hm r
  cases hg : G r with
  | none => rfl
  | some a =>
    rw [hg] at this
    obtain ⟨n, g', _, hg'⟩ := this
    rw [h] at hg'
    simp at hg'

/-- What the elements match is read on the graph. -/
theorem build_reads {a : Alts} (hf : FullAlts a) {n : Nat} {g : Graph} (h : build e n a = .ok g)
    {L : Nat → Lang} {w : List Nat} (hw : effAlts e L (revise a) w) : Path L g g.start w := by
  obtain ⟨g0, h0, rfl⟩ := build_split h
  exact path_merge_ge L w _ g0 (sane_exchange h0)
    ((path_rule (full_revAlts _ a hf) h0 L w).mpr hw)

/-- What is read on the graph is what the elements match. -/
theorem reads_build {a : Alts} (hf : FullAlts a) (hs : SteadyRule e a) {n : Nat} {g : Graph}
    (h : build e n a = .ok g) {L : Nat → Lang} {w : List Nat} (hw : Path L g g.start w) :
    effAlts e L (revise a) w := by
  obtain ⟨g0, h0, rfl⟩ := build_split h
  exact (path_rule (full_revAlts _ a hf) h0 L w).mp
    ((path_merge L w _ g0 (sane_exchange h0) (hs n g0 h0)).mp hw)

theorem rule_accepts (hfull : ∀ r a, G r = some a → FullAlts a) (hm : Made G e Γ) :
    ∀ (n r : Nat) (w : List Nat), effRule X G e n r w →
      (∀ g, Γ r = some g → Accepts X Γ g g.start w) ∧ (Γ r = none → X r w)
  | 0, r, w, h => absurd h (by simp [effRule])
  | n + 1, r, w, h => by
    have ih := rule_accepts hfull hm n
    rw [effRule] at h
    refine ⟨fun g hg => ?_, fun hg => ?_⟩
    · obtain ⟨a, m, ha, hb⟩ := made_some hm hg
      rw [ha] at h
      have hp := build_reads (hfull r a ha) hb h
      clear h
      generalize g.start = us at hp
      induction hp with
      | stop hu hl => exact .stop hu hl
      | tok hu hl _ ih' => exact .tok hu hl ih'
      | @ref us u q v w hu hl hv _ ih' =>
        cases hq : Γ q with
        | none => exact .other hu hl hq ((ih q v hv).2 hq) ih'
        | some k => exact .ref hu hl hq ((ih q v hv).1 k hq) ih'
    · rw [made_none hm hg] at h
      exact h

theorem accepts_rule (hfull : ∀ r a, G r = some a → FullAlts a) (hm : Made G e Γ)
    (hs : ∀ r a, G r = some a → SteadyRule e a) {g : Graph} {us w : List Nat}
    (h : Accepts X Γ g us w) : ∃ n, Path (effRule X G e n) g us w := by
  induction h with
  | stop hu hl => exact ⟨0, .stop hu hl⟩
  | tok hu hl _ ih =>
    obtain ⟨n, hn⟩ := ih
    exact ⟨n, .tok hu hl hn⟩
  | @ref g us u r k v w hu hl hk _ _ ih1 ih2 =>
    obtain ⟨m, hm1⟩ := ih1
    obtain ⟨n, hn⟩ := ih2
    obtain ⟨a, _, ha, hb⟩ := made_some hm hk
    have hv : effRule X G e (m + 1) r v := by
      rw [effRule, ha]
      exact reads_build (hfull r a ha) (hs r a ha) hb hm1
    exact ⟨max (m + 1) n, .ref hu hl (effRule_mono (Nat.le_max_left ..) _ _ hv)
      (hn.mono (fun r w => effRule_mono (Nat.le_max_right ..) r w))⟩
  | @other g us u r v w hu hl hk hv _ ih =>
    obtain ⟨n, hn⟩ := ih
    have hv' : effRule X G e 1 r v := by
      rw [effRule, made_none hm hk]
      exact hv
    exact ⟨max 1 n, .ref hu hl (effRule_mono (Nat.le_max_left ..) _ _ hv')
      (hn.mono (fun r w => effRule_mono (Nat.le_max_right ..) r w))⟩

/-- The sentences of a rule are accepted by its graph. -/
theorem accepts_of_sentence (hfull : ∀ r a, G r = some a → FullAlts a) (hk : Knows G e)
    (hm : Made G e Γ) {r : Nat} {g : Graph} (hg : Γ r = some g) {w : List Nat}
    (h : Sentence X G r w) : Accepts X Γ g g.start w := by
  obtain ⟨n, hn⟩ := (effRule_sentence hfull hk.1 hk.2.1 (fun r => knows_null hk r) r w).mpr h
  exact (rule_accepts hfull hm n r w hn).1 g hg

/-- What is accepted by the graph of a rule is a sentence. -/
theorem sentence_of_accepts (hfull : ∀ r a, G r = some a → FullAlts a) (hk : Knows G e)
    (hm : Made G e Γ) (hs : ∀ r a, G r = some a → SteadyRule e a) {r : Nat} {g : Graph}
    (hg : Γ r = some g) {w : List Nat} (h : Accepts X Γ g g.start w) : Sentence X G r w := by
  obtain ⟨n, hn⟩ := accepts_rule hfull hm hs h
  obtain ⟨a, _, ha, hb⟩ := made_some hm hg
  refine (effRule_sentence hfull hk.1 hk.2.1 (fun r => knows_null hk r) r w).mp ⟨n + 1, ?_⟩
  rw [effRule, ha]
  exact reads_build (hfull r a ha) (hs r a ha) hb hn

end Verif.Gram.Proof
