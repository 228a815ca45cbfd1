import Verif.Props.Fresnel

/-!
# C07, C08 stated for the array functions themselves

The theorems of `Props/Fresnel` speak of the coefficient for one angle; here the same properties are stated of what
`fresnel_reflection` and `fresnel_pass_frac` return, in textbook terms only.
-/

namespace Verif.Props
open Classical Verif.Spec Verif.Root Verif.Fresnel XF

/-- mean of the two textbook reflectances (unpolarised light) -/
noncomputable def textbookR (n1 n2 θ1 θ2 : ℝ) : ℝ := (textbookRp n1 n2 θ1 θ2 + textbookRs n1 n2 θ1 θ2) / 2

private theorem rMean_textbook {n1 n2 θ1 θ2 : ℝ} (h1 : 0 < n1) (h2 : 0 < n2) (h0 : 0 ≤ θ1)
    (hθ : θ1 < Real.pi / 2) (hs : Snell n1 n2 θ1 θ2) (ht : IsRefractionAngle θ2) (hlt : n1 * Real.sin θ1 < n2) :
    rMean n1 n2 θ1 = textbookR n1 n2 θ1 θ2 := by
  have hm : ¬ tirMask n1 n2 θ1 := by
    rw [tirMask_iff h1 h2 h0 hθ.le]; rintro ⟨_, h'⟩; linarith
  have hc := cos_pos_of h0 hθ
  have hc2 : 0 ≤ Real.cos θ2 := Real.cos_nonneg_of_mem_Icc ⟨ht.1, ht.2⟩
  unfold rMean textbookR
  rw [rPar_eq h2 hs ht hm, rPerp_eq h2 hs ht hm, ratioSq_of_pos (by positivity), ratioSq_of_pos (by positivity)]
  rfl

private theorem textbookR_symm (n1 n2 θ1 θ2 : ℝ) : textbookR n2 n1 θ2 θ1 = textbookR n1 n2 θ1 θ2 := by
  unfold textbookR textbookRp textbookRs
  rw [show n2 * Real.cos θ1 - n1 * Real.cos θ2 = -(n1 * Real.cos θ2 - n2 * Real.cos θ1) by ring,
    show n2 * Real.cos θ1 + n1 * Real.cos θ2 = n1 * Real.cos θ2 + n2 * Real.cos θ1 by ring,
    show n2 * Real.cos θ2 - n1 * Real.cos θ1 = -(n1 * Real.cos θ1 - n2 * Real.cos θ2) by ring,
    show n2 * Real.cos θ2 + n1 * Real.cos θ1 = n1 * Real.cos θ1 + n2 * Real.cos θ2 by ring]
  simp only [neg_div, neg_sq]

/-- C08 (complete value).  `fresnel_pass_frac` on an array of angles in [0, π/2] returns, entry by entry: zero exactly when
the ray `n sin θ` is totally reflected at one of the two interfaces or runs along the first surface; otherwise the
two-interface formula `(1-R1)(1-R2)/(1-R1 R2)` with the regulariser `1e-9` added to the denominator, `R1` and `R2` being
the textbook unpolarised reflectances at the angles given by Snell's law in the slab and behind it. -/
theorem C08_pass_frac_textbook {n : ℕ} (θ : Fin n → ℝ) {nb na : ℝ} (ni? : Option ℝ) (hb : 0 < nb)
    (ha : 0 < na) (hi : ∀ x, ni? = some x → 0 < x) (hθ : ∀ i, 0 ≤ θ i ∧ θ i ≤ Real.pi / 2) :
    ∃ p : Fin n → ℝ, fresnelPassFrac (fun i => fin (θ i)) nb ni? na = .ok (fun i => fin (p i)) ∧
      let ni := ni?.getD nb
      ∀ i, (p i = 0 ↔ ni ≤ nb * Real.sin (θ i) ∨ na ≤ nb * Real.sin (θ i) ∨ θ i = Real.pi / 2) ∧
        ∀ θi θa, nb * Real.sin (θ i) < ni → nb * Real.sin (θ i) < na → θ i < Real.pi / 2 →
          IsRefractionAngle θi → IsRefractionAngle θa → Snell nb ni (θ i) θi → Snell nb na (θ i) θa →
          p i = (1 - textbookR nb ni (θ i) θi) * (1 - textbookR ni na θi θa) /
            (1 - textbookR nb ni (θ i) θi * textbookR ni na θi θa + 1 / 10 ^ 9) := by
  refine ⟨_, fresnelPassFrac_fin θ ni? hb hi hθ, ?_⟩
  intro ni i
  refine ⟨C08_pass_frac_zero_iff ni? hb ha hi (hθ i).1 (hθ i).2, ?_⟩
  intro θi θa hl1 hl2 hlt hri hra hsi hsa
  have hni : 0 < ni := by
    show 0 < ni?.getD nb
    cases ni? with
    | none => simpa using hb
    | some x => simpa using hi x rfl
  have hti : thetaInside nb ni (θ i) = θi := by
    unfold Snell at hsi
    have e : nb / ni * Real.sin (θ i) = Real.sin θi := by field_simp; linarith
    unfold thetaInside
    rw [e, if_neg (not_lt.mpr (Real.abs_sin_le_one θi)), Real.arcsin_sin hri.1 hri.2]
  have hi0 : 0 ≤ θi := angle_nonneg_of_snell hb hni (hθ i).1 hlt.le hsi hri
  have hilt : θi < Real.pi / 2 := by
    refine lt_of_le_of_ne hri.2 fun h => ?_
    unfold Snell at hsi
    rw [h, Real.sin_pi_div_two] at hsi
    linarith
  have hs2 : Snell ni na θi θa := by unfold Snell at *; rw [← hsi]; exact hsa
  have hs3 : Snell ni nb θi (θ i) := by unfold Snell at *; exact hsi.symm
  have hl2' : ni * Real.sin θi < na := by unfold Snell at hsi; rw [← hsi]; exact hl2
  have hl3 : ni * Real.sin θi < nb := by
    unfold Snell at hsi; rw [← hsi]
    have := sin_lt_one_of (hθ i).1 hlt
    nlinarith
  show passFrac nb ni? na (θ i) = _
  rw [passFrac_eq]
  show (1 - rMean nb ni (θ i)) * (1 - rMean ni na (thetaInside nb ni (θ i))) /
    (1 - rMean ni na (thetaInside nb ni (θ i)) * rMean ni nb (thetaInside nb ni (θ i)) + EPS) = _
  rw [hti, rMean_textbook hb hni (hθ i).1 hlt hsi hri hl1, rMean_textbook hni ha hi0 hilt hs2 hra hl2',
    rMean_textbook hni hb hi0 hilt hs3 ⟨by linarith [Real.pi_pos, (hθ i).1], hlt.le⟩ hl3,
    textbookR_symm nb ni (θ i) θi, mul_comm (textbookR ni na θi θa)]
  rfl

/-- Non-vacuity: 30° from index 1 through a slab of index 2 into index 1. -/
example : (1:ℝ) * Real.sin (Real.pi / 6) < 2 ∧ (1:ℝ) * Real.sin (Real.pi / 6) < 1 ∧
    Snell 1 2 (Real.pi / 6) (Real.arcsin (1 / 4)) ∧ Snell 1 1 (Real.pi / 6) (Real.pi / 6) := by
  refine ⟨?_, ?_, ?_, rfl⟩
  · rw [Real.sin_pi_div_six]; norm_num
  · rw [Real.sin_pi_div_six]; norm_num
  · unfold Snell; rw [Real.sin_arcsin (by norm_num) (by norm_num), Real.sin_pi_div_six]; norm_num

/-- C07, for `fresnel_reflection` on an array of angles in [0, π/2]: entry `i` of the returned pair of arrays is

* (0, 0) for equal indices below grazing incidence;
* `((n1-n2)/(n1+n2))²` twice at normal incidence;
* (1, 1) at grazing incidence;
* of parallel component 0 exactly at the Brewster angle (different indices, below grazing);
* equal to what the call with the indices exchanged returns at the refracted angle, below the critical angle. -/
theorem C07_fresnel_special {n : ℕ} (θ : Fin n → ℝ) {n1 n2 : ℝ} (h1 : 0 < n1) (h2 : 0 < n2)
    (hθ : ∀ i, 0 ≤ θ i ∧ θ i ≤ Real.pi / 2) :
    ∃ rp rs : Fin n → ℝ,
      fresnelReflection n1 n2 (fun i => fin (θ i)) = .ok (fun i => fin (rp i), fun i => fin (rs i)) ∧
      ∀ i, (n1 = n2 → θ i < Real.pi / 2 → rp i = 0 ∧ rs i = 0) ∧
        (θ i = 0 → rp i = ((n1 - n2) / (n1 + n2)) ^ 2 ∧ rs i = ((n1 - n2) / (n1 + n2)) ^ 2) ∧
        (θ i = Real.pi / 2 → rp i = 1 ∧ rs i = 1) ∧
        (n1 ≠ n2 → θ i < Real.pi / 2 → (rp i = 0 ↔ Real.tan (θ i) = n2 / n1)) ∧
        (θ i < Real.pi / 2 → n1 * Real.sin (θ i) < n2 → ∀ t, IsRefractionAngle t → Snell n1 n2 (θ i) t →
          fresnelReflection n2 n1 (fun _ : Fin 1 => fin t) = .ok (fun _ => fin (rp i), fun _ => fin (rs i))) := by
  have hnerr : ¬ ∃ i, (fin (Real.pi / 2) : XF) < fin (θ i) := by
    rintro ⟨i, hi⟩
    rw [fin_lt] at hi
    linarith [(hθ i).2]
  refine ⟨fun i => rPar n1 n2 (θ i), fun i => rPerp n1 n2 (θ i), ?_, ?_⟩
  · simp only [fresnelReflection, if_neg hnerr, onFin]
  intro i
  refine ⟨?_, ?_, ?_, ?_, ?_⟩
  · rintro rfl hlt
    exact C07_fresnel_index_match h1 (hθ i).1 hlt
  · intro h; simp only [h]; exact C07_fresnel_normal h1 h2
  · intro h; simp only [h]; exact C07_fresnel_grazing n1 n2
  · intro hne hlt; exact C07_fresnel_brewster h1 h2 hne (hθ i).1 hlt
  · intro hlt hl t ht hs
    have hn : ¬ ∃ _ : Fin 1, (fin (Real.pi / 2) : XF) < fin t := by
      rintro ⟨_, hi⟩
      rw [fin_lt] at hi
      linarith [ht.2]
    have := r_recip h1 h2 (hθ i).1 hlt hs ht hl
    simp only [fresnelReflection, if_neg hn, onFin, this.1, this.2]

/-- Non-vacuity: the hypotheses hold at 60° from index 1 to index √3, the Brewster angle. -/
example : (0 ≤ Real.pi / 3 ∧ Real.pi / 3 ≤ Real.pi / 2) ∧ (1:ℝ) ≠ Real.sqrt 3 ∧
    Real.tan (Real.pi / 3) = Real.sqrt 3 / 1 ∧ (1:ℝ) * Real.sin (Real.pi / 3) < Real.sqrt 3 := by
  have hp := Real.pi_pos
  have h3 : (1:ℝ) < Real.sqrt 3 := by
    rw [show (1:ℝ) = Real.sqrt 1 by simp]; exact Real.sqrt_lt_sqrt (by norm_num) (by norm_num)
  refine ⟨⟨by linarith, by linarith⟩, h3.ne, by rw [Real.tan_pi_div_three]; simp, ?_⟩
  rw [Real.sin_pi_div_three]; linarith

end Verif.Props
