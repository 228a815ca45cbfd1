import Verif.Model.Geometry
import Verif.Lemmas.Root
import Mathlib.Tactic.LinearCombination
import Mathlib.Tactic.FieldSimp
import Mathlib.Tactic.Positivity

namespace Verif.Geometry
open Classical XF Root Verif.Spec

/-- a specification vector as a model column -/
def ofV3 (v : V3) : XV := finV v.x v.y v.z

theorem finV_inj {a b c a' b' c' : ℝ} : finV a b c = finV a' b' c' ↔ a = a' ∧ b = b' ∧ c = c' := by
  unfold finV
  constructor
  · intro h
    injection h with h1 h2 h3
    exact ⟨(fin_inj _ _).mp h1, (fin_inj _ _).mp h2, (fin_inj _ _).mp h3⟩
  · rintro ⟨rfl, rfl, rfl⟩; rfl

theorem ofV3_inj {a b : V3} : ofV3 a = ofV3 b ↔ a = b := by
  unfold ofV3
  rw [finV_inj]
  constructor
  · rintro ⟨h1, h2, h3⟩; exact V3.ext h1 h2 h3
  · rintro rfl; exact ⟨rfl, rfl, rfl⟩

/-- the column model of `normalize` agrees with the array model -/
theorem normalize_col {n : ℕ} (x y z : Fin n → XF) (i : Fin n) :
    normalizeCol ⟨x i, y i, z i⟩ =
      ⟨(Root.normalize x y z).1 i, (Root.normalize x y z).2.1 i, (Root.normalize x y z).2.2 i⟩ := by
  simp [normalizeCol, Root.normalize]

theorem normSq_nonneg (v : V3) : 0 ≤ v.normSq := by
  unfold V3.normSq V3.dot
  nlinarith [mul_self_nonneg v.x, mul_self_nonneg v.y, mul_self_nonneg v.z]

theorem norm_nonneg' (v : V3) : 0 ≤ v.norm := Real.sqrt_nonneg _

theorem norm_sq' (v : V3) : v.norm * v.norm = v.normSq := Real.mul_self_sqrt (normSq_nonneg v)

theorem normSq_pos {v : V3} (h : v ≠ V3.zero) : 0 < v.normSq := by
  rcases (normSq_nonneg v).lt_or_eq with h1 | h1
  · exact h1
  · exfalso
    apply h
    unfold V3.normSq V3.dot at h1
    have hx : v.x = 0 := by nlinarith [mul_self_nonneg v.x, mul_self_nonneg v.y, mul_self_nonneg v.z]
    have hy : v.y = 0 := by nlinarith [mul_self_nonneg v.x, mul_self_nonneg v.y, mul_self_nonneg v.z]
    have hz : v.z = 0 := by nlinarith [mul_self_nonneg v.x, mul_self_nonneg v.y, mul_self_nonneg v.z]
    exact V3.ext hx hy hz

theorem norm_pos' {v : V3} (h : v ≠ V3.zero) : 0 < v.norm := Real.sqrt_pos.mpr (normSq_pos h)

theorem norm_eq_of_normSq {v : V3} {r : ℝ} (hr : 0 ≤ r) (h : v.normSq = r * r) : v.norm = r := by
  unfold V3.norm; rw [h]; exact Real.sqrt_mul_self hr

theorem normalizeCol_fin {v : V3} (h : v ≠ V3.zero) : normalizeCol (ofV3 v) = ofV3 (V3.smul (1 / v.norm) v) := by
  have hp := norm_pos' h
  have hm : magnitude (fin v.x) (fin v.y) (fin v.z) = fin v.norm := by
    rw [magnitude_fin]; rfl
  unfold normalizeCol ofV3 finV
  simp only [hm, fin_div _ hp.ne', V3.smul]
  congr 1 <;> congr 1 <;> ring

theorem magnitude_zero : magnitude (fin 0) (fin 0) (fin 0) = fin 0 := by
  rw [magnitude_fin]; simp

theorem zero_div_zero : (fin 0 / fin 0 : XF) = nan := by
  rw [fin_div_def, if_pos rfl]; simp [infOfSign]

theorem normalizeCol_zero : normalizeCol (finV 0 0 0) = ⟨nan, nan, nan⟩ := by
  unfold normalizeCol finV
  simp only [magnitude_zero, zero_div_zero]

theorem sqrt_fin_sq {s : ℝ} (hs : 0 ≤ s) : XF.sqrt (fin (s * s)) = fin s := by
  show (if 0 ≤ s * s then fin (Real.sqrt (s * s)) else nan) = fin s
  rw [if_pos (mul_self_nonneg s), Real.sqrt_mul_self hs]

theorem sqrt_fin_neg {a : ℝ} (h : a < 0) : XF.sqrt (fin a) = nan := by
  show (if 0 ≤ a then fin (Real.sqrt a) else nan) = nan
  rw [if_neg (not_le.mpr h)]

/-- the value of `find_vec_sphere_intersect` on finite points that differ, when the line meets the sphere -/
theorem find_eq {p0 p1 : V3} {R d s : ℝ} (hd : 0 < d) (hdd : (V3.sub p1 p0).normSq = d * d)
    (hs : 0 ≤ s) (hss : s * s = (2 * (V3.dot (V3.sub p1 p0) p0 / d)) ^ 2 - 4 * (p0.normSq - R * R)) :
    findVecSphereIntersect (ofV3 p0) (ofV3 p1) R =
      (let b := 2 * (V3.dot (V3.sub p1 p0) p0 / d)
       let tp := (-b + s) / 2
       let tm := (-b - s) / 2
       if (tm - d) ^ 2 < (tp - d) ^ 2 then ofV3 (V3.add p0 (V3.smul (tm / d) (V3.sub p1 p0)))
       else if (tp - d) ^ 2 < (tm - d) ^ 2 then ofV3 (V3.add p0 (V3.smul (tp / d) (V3.sub p1 p0)))
       else finV 0 0 0) := by
  have hne : V3.sub p1 p0 ≠ V3.zero := by
    intro h
    rw [h] at hdd
    simp [V3.normSq, V3.dot, V3.zero] at hdd
    exact hd.ne' hdd
  have hnorm : (V3.sub p1 p0).norm = d := norm_eq_of_normSq hd.le hdd
  have hk : normalizeCol ⟨fin (p1.x - p0.x), fin (p1.y - p0.y), fin (p1.z - p0.z)⟩ =
      ofV3 (V3.smul (1 / d) (V3.sub p1 p0)) := by
    have := normalizeCol_fin hne
    rw [hnorm] at this
    simpa [ofV3, finV, V3.sub] using this
  set w := V3.sub p1 p0 with hw
  have h1 : w.x = p1.x - p0.x := rfl
  have h2 : w.y = p1.y - p0.y := rfl
  have h3 : w.z = p1.z - p0.z := rfl
  have hww : w.x * w.x + w.y * w.y + w.z * w.z = d * d := hdd
  have ha : 1 / d * w.x * (1 / d * w.x) + 1 / d * w.y * (1 / d * w.y) + 1 / d * w.z * (1 / d * w.z) = 1 := by
    field_simp; linarith
  have hb : 2 * (1 / d * w.x * p0.x + 1 / d * w.y * p0.y + 1 / d * w.z * p0.z) = 2 * (V3.dot w p0 / d) := by
    unfold V3.dot; field_simp
  have hc : p0.x * p0.x + p0.y * p0.y + p0.z * p0.z - R * R = p0.normSq - R * R := rfl
  unfold findVecSphereIntersect
  simp only [ofV3, finV] at hk ⊢
  simp only [fin_sub, hk, V3.smul, fin_mul, fin_add, ha, hb, hc]
  set b := 2 * (V3.dot w p0 / d) with hbdef
  have hsq : XF.sqrt (fin (b * b - 4 * 1 * (p0.normSq - R * R))) = fin s := by
    have : b * b - 4 * 1 * (p0.normSq - R * R) = s * s := by rw [hss]; ring
    rw [this]
    exact sqrt_fin_sq hs
  unfold quadratic
  simp only [fin_mul, fin_add, fin_sub, fin_neg, hsq]
  rw [fin_div _ (by norm_num : (2 * 1 : ℝ) ≠ 0), fin_div _ (by norm_num : (2 * 1 : ℝ) ≠ 0)]
  simp only [fin_mul, fin_add, distSq, fin_sub, nanToNum_fin, fin_lt, mul_one]
  have hdist : ∀ t : ℝ, (p0.x + t * (1 / d * w.x) - p1.x) * (p0.x + t * (1 / d * w.x) - p1.x)
      + (p0.y + t * (1 / d * w.y) - p1.y) * (p0.y + t * (1 / d * w.y) - p1.y)
      + (p0.z + t * (1 / d * w.z) - p1.z) * (p0.z + t * (1 / d * w.z) - p1.z) = (t - d) ^ 2 := by
    intro t
    have e1 : p0.x + t * (1 / d * w.x) - p1.x = (t - d) / d * w.x := by rw [h1]; field_simp; ring
    have e2 : p0.y + t * (1 / d * w.y) - p1.y = (t - d) / d * w.y := by rw [h2]; field_simp; ring
    have e3 : p0.z + t * (1 / d * w.z) - p1.z = (t - d) / d * w.z := by rw [h3]; field_simp; ring
    rw [e1, e2, e3]
    have : (t - d) / d * w.x * ((t - d) / d * w.x) + (t - d) / d * w.y * ((t - d) / d * w.y)
      + (t - d) / d * w.z * ((t - d) / d * w.z) = ((t - d) / d) ^ 2 * (w.x * w.x + w.y * w.y + w.z * w.z) := by ring
    rw [this, hww]; field_simp
  simp only [hdist]
  have hpt : ∀ t : ℝ, (⟨fin (p0.x + t * (1 / d * w.x)), fin (p0.y + t * (1 / d * w.y)),
      fin (p0.z + t * (1 / d * w.z))⟩ : XV) = ofV3 (V3.add p0 (V3.smul (t / d) w)) := by
    intro t
    unfold ofV3 finV V3.add V3.smul
    congr 2 <;> ring
  simp only [hpt]
  rfl

/-- rotation formula on real columns -/
theorem rotateRefract_fin (p u k : V3) (α : ℝ) :
    rotateRefract (ofV3 p) (ofV3 u) (ofV3 k) (fin α) =
      ofV3 (V3.add (V3.smul (Real.cos α) k)
        (V3.add (V3.smul (Real.sin α) (V3.cross u k))
          (V3.sub (V3.smul (V3.dot u k * (1 - Real.cos α)) u)
            (V3.smul ((1 - u.normSq) * (1 - Real.cos α)) p)))) := by
  unfold rotateRefract ofV3 finV
  simp only [fin_mul, fin_add, fin_sub, fin_neg, cos_fin, sin_fin]
  congr 2 <;> simp only [V3.add, V3.smul, V3.sub, V3.cross, V3.dot, V3.normSq] <;> ring

theorem rotateRefract_nan (p u k : XV) : (rotateRefract p u k nan).z = nan := by
  unfold rotateRefract
  simp

/-- every coordinate is at most `B` in size -/
def Bounded (v : V3) (B : ℝ) : Prop := |v.x| ≤ B ∧ |v.y| ≤ B ∧ |v.z| ≤ B

theorem clipBoth_id {R a : ℝ} (h : |a| ≤ 10 ^ 20 * R) : clipBoth R (fin a) = fin a := by
  have h' := abs_le.mp h
  unfold clipBoth
  simp only [fin_lt]
  rw [if_neg (not_lt.mpr h'.2)]
  simp only [fin_lt]
  rw [if_neg (not_lt.mpr (by linarith [h'.1]))]

theorem clipUpper_id {R a : ℝ} (h : |a| ≤ 10 ^ 20 * R) : clipUpper R (fin a) = fin a := by
  have h' := abs_le.mp h
  unfold clipUpper
  simp only [fin_lt]
  rw [if_neg (not_lt.mpr h'.2)]

theorem infToLarge_id {p0 p1 : V3} {R : ℝ} (h0 : Bounded p0 (10 ^ 20 * R)) (h1 : Bounded p1 (10 ^ 20 * R)) :
    infToLarge (ofV3 p0) (ofV3 p1) R = (ofV3 p0, ofV3 p1) := by
  unfold infToLarge ofV3 finV
  simp only [clipBoth_id h0.1, clipBoth_id h0.2.1, clipUpper_id h0.2.2, clipBoth_id h1.1, clipBoth_id h1.2.1,
    clipBoth_id h1.2.2]

theorem bounded_of_normSq {p : V3} {R : ℝ} (hR : 0 < R) (h : p.normSq ≤ R * R) : Bounded p (10 ^ 20 * R) := by
  unfold V3.normSq V3.dot at h
  have key : ∀ a : ℝ, a * a ≤ R * R → |a| ≤ 10 ^ 20 * R := by
    intro a ha
    have : |a| ≤ R := abs_le_of_sq_le_sq (by nlinarith) hR.le
    nlinarith
  refine ⟨key _ ?_, key _ ?_, key _ ?_⟩ <;>
    nlinarith [mul_self_nonneg p.x, mul_self_nonneg p.y, mul_self_nonneg p.z]

theorem lagrange (a b : V3) : V3.dot a b ^ 2 + (V3.cross a b).normSq = a.normSq * b.normSq := by
  simp only [V3.dot, V3.cross, V3.normSq]; ring

theorem dot_mem {a b : V3} (ha : a.normSq = 1) (hb : b.normSq = 1) : -1 ≤ V3.dot a b ∧ V3.dot a b ≤ 1 := by
  have h := lagrange a b
  rw [ha, hb] at h
  have h2 := normSq_nonneg (V3.cross a b)
  constructor <;> nlinarith

theorem smul_normSq (c : ℝ) (v : V3) : (V3.smul c v).normSq = c * c * v.normSq := by
  simp only [V3.smul, V3.normSq, V3.dot]; ring

theorem unit_of_norm {v : V3} (h : v ≠ V3.zero) : (V3.smul (1 / v.norm) v).normSq = 1 := by
  rw [smul_normSq, ← norm_sq' v]
  have := norm_pos' h
  field_simp

theorem getAnglesSphere_eq {p0 p1 q : V3} {R : ℝ} (hR : 0 < R) (h0 : Bounded p0 (10 ^ 20 * R))
    (h1 : Bounded p1 (10 ^ 20 * R)) (hne : V3.sub p1 p0 ≠ V3.zero) (hq : q.normSq = R * R)
    (hf : findVecSphereIntersect (ofV3 p0) (ofV3 p1) R = ofV3 q) :
    getAnglesSphere (ofV3 p0) (ofV3 p1) R =
      (fin (Real.arccos (V3.dot (V3.smul (1 / R) q) (V3.smul (1 / (V3.sub p1 p0).norm) (V3.sub p1 p0)))),
        ofV3 (V3.smul (1 / R) q)) := by
  have hqn : q.norm = R := norm_eq_of_normSq hR.le hq
  have hqne : q ≠ V3.zero := by
    intro h
    rw [h] at hq
    simp [V3.normSq, V3.dot, V3.zero] at hq
    exact hR.ne' hq
  have hk : normalizeCol ⟨fin (p1.x - p0.x), fin (p1.y - p0.y), fin (p1.z - p0.z)⟩ =
      ofV3 (V3.smul (1 / (V3.sub p1 p0).norm) (V3.sub p1 p0)) := by
    have := normalizeCol_fin hne
    simpa [ofV3, finV, V3.sub] using this
  have hn := normalizeCol_fin hqne
  rw [hqn] at hn
  have hunit : (V3.smul (1 / R) q).normSq = 1 := by rw [smul_normSq, hq]; field_simp
  have hd := dot_mem hunit (unit_of_norm hne)
  unfold getAnglesSphere
  rw [infToLarge_id h0 h1]
  simp only [hf, hn]
  have e : (⟨(ofV3 p1).x - (ofV3 p0).x, (ofV3 p1).y - (ofV3 p0).y, (ofV3 p1).z - (ofV3 p0).z⟩ : XV) =
      ⟨fin (p1.x - p0.x), fin (p1.y - p0.y), fin (p1.z - p0.z)⟩ := by
    simp [ofV3, finV]
  rw [e, hk]
  set kk := V3.smul (1 / (V3.sub p1 p0).norm) (V3.sub p1 p0)
  set nn := V3.smul (1 / R) q
  have e2 : (ofV3 nn).x * (ofV3 kk).x + (ofV3 nn).y * (ofV3 kk).y + (ofV3 nn).z * (ofV3 kk).z =
      fin (V3.dot nn kk) := by
    simp [ofV3, finV, V3.dot]
  rw [e2, nanToNum_fin, arccos_of_mem hd.1 hd.2]
  rfl

end Verif.Geometry
