import Verif.Spec.Slip
import Mathlib.Analysis.Calculus.Deriv.MeanValue

/-! The time of an event depends continuously on the start, if the signal crosses the level with positive speed. -/

namespace NNL

open Set Topology NNL.Spec

/-- A signal which goes from below the level to above crosses it upwards. -/
theorem crossing {r : ℝ → ℝ} {l a b : ℝ} (ha : 0 ≤ a) (hab : a ≤ b) (hc : ContinuousOn r (Icc a b)) (h1 : r a < l) (h2 : l ≤ r b) :
    ∃ t ∈ Ioc a b, CrossesUp r l t := by
  set S := Icc a b ∩ r ⁻¹' Ici l with hS
  have hSc : IsCompact S := isCompact_Icc.of_isClosed_subset (hc.preimage_isClosed_of_isClosed isClosed_Icc isClosed_Ici)
    inter_subset_left
  obtain ⟨t, ht, hmin⟩ := hSc.exists_isLeast ⟨b, ⟨hab, le_rfl⟩, h2⟩
  have hat : a < t := lt_of_le_of_ne ht.1.1 (by rintro rfl; exact absurd ht.2 (not_le.2 h1))
  have hbelow : ∀ s ∈ Ioo a t, r s < l := by
    intro s hs
    by_contra hc
    exact absurd (hmin ⟨⟨hs.1.le, (hs.2.trans_le ht.1.2).le⟩, not_lt.1 hc⟩) (not_le.2 hs.2)
  refine ⟨t, ⟨hat, ht.1.2⟩, le_antisymm ?_ ht.2, a, ⟨ha, hat⟩, hbelow⟩
  -- the value at the first time is the limit of smaller values
  have hcl : t ∈ closure (Ioo a t) := by rw [closure_Ioo hat.ne]; exact ⟨hat.le, le_rfl⟩
  have hw : ContinuousWithinAt r (Ioo a t) t := (hc t ht.1).mono fun s hs => ⟨hs.1.le, (hs.2.trans_le ht.1.2).le⟩
  have := hw.mem_closure_image hcl
  refine closure_minimal ?_ isClosed_Iic this
  rintro _ ⟨s, hs, rfl⟩
  exact (hbelow s hs).le

variable {E : Type*} [TopologicalSpace E]

/-- The event time is continuous. -/
theorem event_continuous {r rd : ℝ → E → ℝ} {τ : E → ℝ} {x0 : E} {l T : ℝ} (hT : τ x0 < T)
    (hr : ∀ ε > 0, ∀ᶠ y in 𝓝 x0, ∀ t ∈ Icc 0 T, |r t y - r t x0| < ε)
    (hrd : ∀ ε > 0, ∀ᶠ y in 𝓝 x0, ∀ t ∈ Icc 0 T, |rd t y - rd t x0| < ε)
    (hd : ∀ᶠ y in 𝓝 x0, ∀ t ∈ Icc 0 T, HasDerivWithinAt (fun s => r s y) (rd t y) (Icc 0 T) t)
    (hc : ContinuousOn (fun t => rd t x0) (Icc 0 T)) (h0 : r 0 x0 ≤ l) (hdown : rd 0 x0 < 0) (hup : 0 < rd (τ x0) x0)
    (hev : ∀ᶠ y in 𝓝 x0, FirstUp (fun t => r t y) l (τ y)) : ContinuousAt τ x0 := by
  obtain ⟨hpos, ⟨hl, -⟩, hfirst⟩ := hev.self_of_nhds
  have hd0 := hd.self_of_nhds
  have cr : ∀ {y}, (∀ t ∈ Icc 0 T, HasDerivWithinAt (fun s => r s y) (rd t y) (Icc 0 T) t) →
      ContinuousOn (fun s => r s y) (Icc 0 T) := fun h t ht => (h t ht).continuousWithinAt
  -- the speed is negative on a first interval
  obtain ⟨d, hd1, hd2⟩ : ∃ d ∈ Ioo 0 (τ x0), ∀ t ∈ Icc 0 d, rd t x0 < rd 0 x0 / 2 := by
    have hw := hc 0 ⟨le_rfl, (hpos.trans hT).le⟩
    have hlt : ∀ᶠ t in 𝓝[Icc 0 T] 0, rd t x0 < rd 0 x0 / 2 := hw.eventually (gt_mem_nhds (by linarith))
    obtain ⟨e, he, hsub⟩ := Metric.mem_nhdsWithin_iff.1 hlt
    refine ⟨min (e / 2) (τ x0 / 2), ⟨by positivity, by linarith [min_le_right (e / 2) (τ x0 / 2)]⟩, fun t ht => ?_⟩
    have h1 := min_le_left (e / 2) (τ x0 / 2)
    have h2 := min_le_right (e / 2) (τ x0 / 2)
    refine hsub ⟨?_, ht.1, by linarith [ht.2]⟩
    rw [Metric.mem_ball, Real.dist_eq, sub_zero, abs_of_nonneg ht.1]
    linarith [ht.2]
  -- a motion with negative speed on the interval decreases there
  have hdec : ∀ {y}, (∀ t ∈ Icc 0 T, HasDerivWithinAt (fun s => r s y) (rd t y) (Icc 0 T) t) →
      (∀ t ∈ Icc 0 d, rd t y < 0) → StrictAntiOn (fun s => r s y) (Icc 0 d) := by
    intro y h1 h2
    refine strictAntiOn_of_deriv_neg (convex_Icc 0 d) ((cr h1).mono (Icc_subset_Icc_right (hd1.2.trans hT).le)) fun t ht => ?_
    rw [interior_Icc] at ht
    have := (h1 t ⟨ht.1.le, (ht.2.trans (hd1.2.trans hT)).le⟩).hasDerivAt (Icc_mem_nhds ht.1 (ht.2.trans (hd1.2.trans hT)))
    rw [this.deriv]
    exact h2 t (Ioo_subset_Icc_self ht)
  have hr_d : r d x0 < l := by
    have := hdec hd0 (fun t ht => (hd2 t ht).trans (by linarith)) ⟨le_rfl, hd1.1.le⟩ ⟨hd1.1.le, le_rfl⟩ hd1.1
    exact lt_of_lt_of_le this h0
  -- below the level until the event
  have hbelow : ∀ t ∈ Ico d (τ x0), r t x0 < l := by
    intro t ht
    by_contra hcon
    obtain ⟨s, hs, hcr⟩ := crossing hd1.1.le ht.1 ((cr hd0).mono (Icc_subset_Icc hd1.1.le (ht.2.trans hT).le)) hr_d
      (not_lt.1 hcon)
    exact hfirst s ⟨hd1.1.trans hs.1, hs.2.trans_lt ht.2⟩ hcr
  rw [Metric.continuousAt_iff']
  intro ε hε
  -- times just before and just after the event
  set tm := max d (τ x0 - ε / 2) with htm
  have htm1 : tm < τ x0 := max_lt hd1.2 (by linarith)
  have htm0 : d ≤ tm := le_max_left _ _
  have hneg : r tm x0 < l := hbelow tm ⟨htm0, htm1⟩
  obtain ⟨tp, htp, hpos2⟩ : ∃ tp ∈ Ioo (τ x0) (min T (τ x0 + ε)), l < r tp x0 := by
    have hda := (hd0 (τ x0) ⟨hpos.le, hT.le⟩).hasDerivAt (Icc_mem_nhds hpos hT)
    have h1 : ∀ᶠ s in 𝓝[>] (τ x0), 0 < (r s x0 - r (τ x0) x0) / (s - τ x0) := by
      have := (hasDerivAt_iff_tendsto_slope.1 hda).mono_left (nhdsWithin_mono _ fun s hs => ne_of_gt hs : 𝓝[>] (τ x0) ≤ 𝓝[≠] (τ x0))
      filter_upwards [this.eventually (lt_mem_nhds hup)] with s hs
      rwa [slope_def_field] at hs
    have h2 : ∀ᶠ s in 𝓝[>] (τ x0), s ∈ Ioo (τ x0) (min T (τ x0 + ε)) := Ioo_mem_nhdsGT (lt_min hT (by linarith))
    obtain ⟨s, hs1, hs2⟩ := (h1.and h2).exists
    refine ⟨s, hs2, ?_⟩
    have : 0 < s - τ x0 := sub_pos.2 hs2.1
    rw [div_pos_iff_of_pos_right this] at hs1
    simp only at hl
    linarith
  -- a margin between the events
  have hcomp : ∃ m > 0, ∀ t ∈ Icc d tm, r t x0 ≤ l - m := by
    obtain ⟨t, ht, hmax⟩ := isCompact_Icc.exists_isMaxOn ⟨d, le_rfl, htm0⟩
      ((cr hd0).mono (Icc_subset_Icc hd1.1.le (htm1.trans hT).le) : ContinuousOn (fun s => r s x0) (Icc d tm))
    refine ⟨l - r t x0, sub_pos.2 (hbelow t ⟨ht.1, ht.2.trans_lt htm1⟩), fun s hs => ?_⟩
    have := hmax hs
    simp only [mem_ofPred_eq] at this
    linarith
  obtain ⟨m, hm, hmar⟩ := hcomp
  have tpT : tp ∈ Icc 0 T := ⟨(hpos.trans htp.1).le, (htp.2.trans_le (min_le_left _ _)).le⟩
  have tmT : tm ∈ Icc 0 T := ⟨hd1.1.le.trans htm0, (htm1.trans hT).le⟩
  filter_upwards [hr m hm, hr (r tp x0 - l) (sub_pos.2 hpos2), hr (l - r tm x0) (sub_pos.2 hneg),
    hrd (-(rd 0 x0 / 2)) (by linarith), hd, hev] with y y1 y2 y3 y4 y5 y6
  obtain ⟨z1, ⟨z2, a, ha, z3⟩, z4⟩ := y6
  -- not before
  have hlow : tm < τ y := by
    by_contra hcon
    rw [not_lt] at hcon
    by_cases hcase : τ y ≤ d
    · have hanti := hdec y5 fun t ht => by
        have := (abs_lt.1 (y4 t ⟨ht.1, (ht.2.trans_lt (hd1.2.trans hT)).le⟩)).2
        linarith [hd2 t ht]
      obtain ⟨s, hs⟩ := exists_between ha.2
      have h1 := z3 s hs
      have h2 := hanti ⟨ha.1.trans hs.1.le, hs.2.le.trans hcase⟩ ⟨z1.le, hcase⟩ hs.2
      simp only at h1 h2 z2
      linarith
    · have := (abs_lt.1 (y1 (τ y) ⟨z1.le, hcon.trans tmT.2⟩)).2
      have := hmar (τ y) ⟨(not_le.1 hcase).le, hcon⟩
      simp only at z2
      linarith
  -- not after
  have hhigh : τ y ≤ tp := by
    by_contra hcon
    rw [not_le] at hcon
    have h2 := (abs_lt.1 (y2 tp tpT)).1
    have h3 := (abs_lt.1 (y3 tm tmT)).2
    obtain ⟨s, hs, hcr⟩ := crossing (r := fun t => r t y) (l := l) tmT.1 (htm1.trans htp.1).le
      ((cr y5).mono (Icc_subset_Icc tmT.1 tpT.2)) (by linarith) (by linarith)
    exact z4 s ⟨tmT.1.trans_lt hs.1, hs.2.trans_lt hcon⟩ hcr
  rw [Real.dist_eq, abs_lt]
  have := le_max_right d (τ x0 - ε / 2)
  have := htp.2.trans_le (min_le_right _ _)
  constructor <;> linarith

end NNL
