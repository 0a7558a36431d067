import Verif.Lemmas.RandomSphere
import Verif.Lemmas.RandomOnSphere
import Verif.Lemmas.RandomFill
import Verif.Model.RandomSphere
import Verif.Props.Vector

/-!
# C151: random points are uniformly distributed

Property: the points of `randomPointInSphere` are uniformly distributed in the unit ball, and those of `randomPointOnSphere` on the unit
sphere. In real arithmetic, with draws that are independent and uniform on [0, 1).

True of `randomPointInSphere`. True of `randomPointOnSphere` if its vectors fill their packets; false otherwise, as for the default
`Vector<float, 3>` in packets of four: its points are inside the sphere.
-/

open MeasureTheory Set Real ProbabilityTheory Filter
open scoped ENNReal Topology

namespace Verif.RandomDist

open Verif.Vec

/-- The components of a point of `randomPointInSphere`. -/
theorem in_components (cbrt : ℝ → ℝ) (w : Nat) (mem : Nat → ℝ) (u v t : ℝ) :
    ((randomPointInSphere Real.cos Real.sin Real.arccos cbrt π w mem u v t).lane 0, (randomPointInSphere Real.cos Real.sin Real.arccos cbrt π w mem u v t).lane 1,
      (randomPointInSphere Real.cos Real.sin Real.arccos cbrt π w mem u v t).lane 2) = ballPoint cbrt u v t := rfl

/-- `randomPointInSphere` falls into a set with the probability that is the share of the set in the volume of the unit ball. -/
theorem C151_in_sphere (cbrt : ℝ → ℝ) (hc : ∀ x, 0 ≤ x → cbrt x ^ 3 = x) (w : Nat) (mem : Nat → ℝ) (A : Set (ℝ × ℝ × ℝ)) (hA : MeasurableSet A) :
    (uniform.prod (uniform.prod uniform)) {d | let p := randomPointInSphere Real.cos Real.sin Real.arccos cbrt π w mem d.1 d.2.1 d.2.2
        (p.lane 0, p.lane 1, p.lane 2) ∈ A} =
      volume {p : ℝ × ℝ × ℝ | p.1 ^ 2 + p.2.1 ^ 2 + p.2.2 ^ 2 < 1 ∧ p ∈ A} / ENNReal.ofReal (4 * π / 3) := by
  have hcm : ∀ t, 0 ≤ t → cbrt t = t ^ ((1 : ℝ) / 3) := by
    intro t ht
    refine (Odd.strictMono_pow (R := ℝ) (by decide : Odd 3)).injective ?_
    rw [hc t ht, ← Real.rpow_natCast, ← Real.rpow_mul ht]
    norm_num
  have hu : uniform = volume.restrict (Ioo (0 : ℝ) 1) := Measure.restrict_congr_set Ioo_ae_eq_Ico.symm
  -- a version of the cube root that is measurable
  set c' : ℝ → ℝ := fun t => t ^ ((1 : ℝ) / 3) with hc'
  have hm : Measurable fun d : ℝ × ℝ × ℝ => ballPoint c' d.1 d.2.1 d.2.2 := by
    have h1 : Measurable c' := by rw [hc']; fun_prop
    have h2 : Measurable Real.arccos := Real.continuous_arccos.measurable
    unfold ballPoint
    fun_prop
  have hcc : ∀ x, 0 ≤ x → c' x ^ 3 = x := fun x hx => by rw [show c' x = cbrt x from (hcm x hx).symm, hc x hx]
  have key := ball_integral c' hcc (A.indicator 1) (measurable_one.indicator hA)
  rw [lintegral_indicator hA, Measure.restrict_restrict hA] at key
  have hvol : volume {p : ℝ × ℝ × ℝ | p.1 ^ 2 + p.2.1 ^ 2 + p.2.2 ^ 2 < 1 ∧ p ∈ A} = volume (A ∩ ball) := by
    congr 1
    ext p
    exact and_comm
  have hdraw : (uniform.prod (uniform.prod uniform)) {d | ballPoint c' d.1 d.2.1 d.2.2 ∈ A} =
      ∫⁻ u in Ioo (0 : ℝ) 1, ∫⁻ v in Ioo (0 : ℝ) 1, ∫⁻ t in Ioo (0 : ℝ) 1, A.indicator 1 (ballPoint c' u v t) := by
    have hi : Measurable (A.indicator (1 : ℝ × ℝ × ℝ → ℝ≥0∞)) := measurable_one.indicator hA
    have hf : Measurable fun d : ℝ × ℝ × ℝ => A.indicator (1 : ℝ × ℝ × ℝ → ℝ≥0∞) (ballPoint c' d.1 d.2.1 d.2.2) := hi.comp hm
    have : ∀ d : ℝ × ℝ × ℝ, ((fun d : ℝ × ℝ × ℝ => ballPoint c' d.1 d.2.1 d.2.2) ⁻¹' A).indicator (1 : ℝ × ℝ × ℝ → ℝ≥0∞) d =
        A.indicator 1 (ballPoint c' d.1 d.2.1 d.2.2) := fun d => rfl
    rw [show {d : ℝ × ℝ × ℝ | ballPoint c' d.1 d.2.1 d.2.2 ∈ A} = (fun d : ℝ × ℝ × ℝ => ballPoint c' d.1 d.2.1 d.2.2) ⁻¹' A from rfl,
      ← lintegral_indicator_one (hm hA), hu, lintegral_congr this, lintegral_prod _ hf.aemeasurable]
    refine lintegral_congr fun u => ?_
    rw [lintegral_prod]
    exact (hf.comp (measurable_const.prodMk measurable_id)).aemeasurable
  have hset : (uniform.prod (uniform.prod uniform)) {d | let p := randomPointInSphere Real.cos Real.sin Real.arccos cbrt π w mem d.1 d.2.1 d.2.2
        (p.lane 0, p.lane 1, p.lane 2) ∈ A} = (uniform.prod (uniform.prod uniform)) {d | ballPoint c' d.1 d.2.1 d.2.2 ∈ A} := by
    refine measure_congr ?_
    have h0 : ∀ᵐ d ∂(uniform.prod (uniform.prod uniform)), 0 ≤ d.2.2 := by
      have hz : ∀ᵐ t ∂uniform, 0 ≤ t := by
        unfold uniform
        exact (ae_restrict_mem measurableSet_Ico).mono fun t ht => ht.1
      have hu0 : SFinite uniform := by unfold uniform; infer_instance
      exact Measure.quasiMeasurePreserving_snd.ae (Measure.quasiMeasurePreserving_snd.ae hz)
    filter_upwards [h0] with d hd
    apply propext
    change (_ ∈ A) ↔ (_ ∈ A)
    simp only [in_components]
    unfold ballPoint
    rw [hcm _ hd]
  rw [hset, hdraw, hvol]
  have h1 : volume (A ∩ ball) = ENNReal.ofReal (4 * π / 3) *
      ∫⁻ u in Ioo (0 : ℝ) 1, ∫⁻ v in Ioo (0 : ℝ) 1, ∫⁻ t in Ioo (0 : ℝ) 1, A.indicator 1 (ballPoint c' u v t) := by
    rw [← key]
    simp
  rw [h1, mul_comm, ENNReal.mul_div_cancel_right]
  · exact (ENNReal.ofReal_pos.2 (by positivity)).ne'
  · exact ENNReal.ofReal_ne_top

/-- The loop that fills the vector. -/
theorem fill_spec {K : Type} [Zero K] (asserts : Bool) (n w : Nat) (mem : Nat → K) (g : Nat → K) :
    ∃ r, forUp 0 n (fun i d => d.put asserts (i : Nat) (g i)) (fresh n w mem) = .ok r ∧ r.dims = n ∧ r.width = w ∧
      ∀ j, r.lane j = if j < n then g j else (fresh n w mem).lane j := by
  obtain ⟨r, h1, h2, h3, h4⟩ := forUp_inv (fun i (r : V K) => r.dims = n ∧ r.width = w ∧
      ∀ j, r.lane j = if j < i then g j else (fresh n w mem).lane j) (lo := 0) (hi := n)
      (body := fun i d => d.put asserts (i : Nat) (g i)) (s := fresh n w mem) (Nat.zero_le _)
      ⟨rfl, rfl, fun j => by rw [if_neg (by omega)]⟩ (by
    rintro i s - hi ⟨e1, e2, e3⟩
    have hb : (0 : Int) ≤ (i : Int) ∧ (i : Int) < s.dims := by rw [e1]; omega
    refine ⟨{ s with lane := fun j => if j = i then g i else s.lane j }, ?_, e1, e2, fun j => ?_⟩
    · unfold V.put
      rw [decide_eq_true hb, if_pos hb]
      cases asserts <;> rfl
    · simp only [e3]
      by_cases c : j = i
      · subst c; rw [if_pos rfl, if_pos (by omega)]
      · rw [if_neg c]
        by_cases c2 : j < i
        · rw [if_pos c2, if_pos (by omega)]
        · rw [if_neg c2, if_neg (by omega)])
  exact ⟨r, h1, h2, h3, h4⟩

/-- The components of a point of `randomPointOnSphere`: the numbers divided by the length of the vector with its padding. -/
theorem C151_value (asserts : Bool) (n w : Nat) (hw : 1 ≤ w) (mem mem' : Nat → ℝ) (g : Nat → ℝ) :
    ∃ u, randomPointOnSphere Real.sqrt asserts n w mem mem' g = .ok u ∧ u.dims = n ∧ ∀ j, j < n →
      u.lane j = g j / √(∑ i ∈ Finset.range n, g i * g i +
        ∑ i ∈ Finset.Ico n (packets n w * w), (fresh n w mem).lane i * (fresh n w mem).lane i) := by
  obtain ⟨r, h1, h2, h3, h4⟩ := fill_spec asserts n w mem g
  have hU : Uniform n w (.vec r) := ⟨h2, h3⟩
  have hm := (C54_reductions asserts hw mem' (a := .vec r) (b := .scalar 0) hU trivial trivial).2.1
  have e1 : ∑ j ∈ Finset.range n, meaning (.vec r) j * meaning (.vec r) j = ∑ i ∈ Finset.range n, g i * g i :=
    Finset.sum_congr rfl fun j hj => by simp only [meaning, h4, if_pos (Finset.mem_range.1 hj)]
  have e2 : ∑ j ∈ Finset.Ico n (packets n w * w), meaning (.vec r) j * meaning (.vec r) j =
      ∑ i ∈ Finset.Ico n (packets n w * w), (fresh n w mem).lane i * (fresh n w mem).lane i :=
    Finset.sum_congr rfl fun j hj => by simp only [meaning, h4, if_neg (not_lt.2 (Finset.mem_Ico.1 hj).1)]
  rw [e1, e2] at hm
  obtain ⟨u, k1, k2, -, k4⟩ := eval_spec (asserts := asserts) hw mem' (e := .bin (· / ·) (.vec r) (.scalar (√(∑ i ∈ Finset.range n, g i * g i +
        ∑ i ∈ Finset.Ico n (packets n w * w), (fresh n w mem).lane i * (fresh n w mem).lane i)))) ⟨hU, trivial⟩ (Or.inl trivial)
  refine ⟨u, ?_, k2, fun j hj => ?_⟩
  · unfold randomPointOnSphere
    rw [h1, Out.ok_bind]
    unfold Vec.norm
    rw [hm, Out.ok_bind, Out.ok_bind, k1]
  · have hle : n ≤ packets n w * w := by
      unfold packets
      have := Nat.div_add_mod (n + w - 1) w
      have := Nat.mod_lt (n + w - 1) (show w > 0 by omega)
      rw [Nat.mul_comm]
      omega
    rw [k4 j (by omega)]
    simp only [meaning, h4, if_pos hj]

/-- The property of `randomPointOnSphere`, of vectors with `n` components in packets of `w`: the point falls into a set with the probability
that is the share of the cone over the set in the volume of the unit ball. -/
def C151Claim (n w : Nat) : Prop :=
  ∀ (asserts : Bool) (mem mem' : Nat → ℝ) (S : Set (Fin n → ℝ)), MeasurableSet S →
    (Measure.pi fun _ : Fin n => gaussianReal 0 1) {g | ∃ u, randomPointOnSphere Real.sqrt asserts n w mem mem'
        (fun i => if h : i < n then g ⟨i, h⟩ else 0) = .ok u ∧ (fun i : Fin n => u.lane i) ∈ S} =
      volume {x : Fin n → ℝ | ∑ j, x j * x j < 1 ∧ (fun i => x i / √(∑ j, x j * x j)) ∈ S} / volume {x : Fin n → ℝ | ∑ j, x j * x j < 1}

theorem on_sphere_set (n w : Nat) (hw : 1 ≤ w) (hdvd : w ∣ n) (asserts : Bool) (mem mem' : Nat → ℝ) (S : Set (Fin n → ℝ)) :
    {g : Fin n → ℝ | ∃ u, randomPointOnSphere Real.sqrt asserts n w mem mem' (fun i => if h : i < n then g ⟨i, h⟩ else 0) = .ok u ∧
      (fun i : Fin n => u.lane i) ∈ S} = {g | unitOf g ∈ S} := by
  ext g
  have hp : packets n w * w = n := by
    obtain ⟨k, rfl⟩ := hdvd
    unfold packets
    rw [show w * k + w - 1 = (w - 1) + w * k by omega, Nat.add_mul_div_left _ _ (by omega), Nat.div_eq_of_lt (by omega), Nat.zero_add, Nat.mul_comm]
  obtain ⟨u, h1, -, h3⟩ := C151_value asserts n w hw mem mem' (fun i => if h : i < n then g ⟨i, h⟩ else 0)
  rw [hp, Finset.Ico_self, Finset.sum_empty, add_zero] at h3
  have hs : ∑ i ∈ Finset.range n, (if h : i < n then g ⟨i, h⟩ else 0) * (if h : i < n then g ⟨i, h⟩ else 0) = ∑ j, g j * g j := by
    rw [Finset.sum_range]
    refine Finset.sum_congr rfl fun i _ => ?_
    rw [dif_pos i.2]
  have hu : (fun i : Fin n => u.lane i) = unitOf g := by
    funext i
    rw [h3 i i.2, hs, dif_pos i.2]
    rfl
  simp only [mem_setOf_eq]
  constructor
  · rintro ⟨u', h, hS'⟩
    rw [h1] at h
    cases h
    rwa [← hu]
  · intro h
    exact ⟨u, h1, by rwa [hu]⟩

/-- The property holds if the packets are full.
Missing: vectors with padding, for which see the next two theorems. -/
theorem C151_on_sphere_partial (n w : Nat) (hn : 1 ≤ n) (hw : 1 ≤ w) (hdvd : w ∣ n) : C151Claim n w := by
  intro asserts mem mem' S hS
  rw [show {x : Fin n → ℝ | ∑ j, x j * x j < 1 ∧ (fun i => x i / √(∑ j, x j * x j)) ∈ S} =
    {x : Fin n → ℝ | ∑ j, x j * x j < 1 ∧ unitOf x ∈ S} from rfl, ← direction n hn S hS, on_sphere_set n w hw hdvd asserts mem mem' S]

/-- With padding that is not zero, no point is on the sphere, whatever the numbers. -/
theorem C151_padding (asserts : Bool) (n w : Nat) (hw : 2 ≤ w) (mem mem' : Nat → ℝ) (g : Nat → ℝ)
    (hpad : ∃ i, n ≤ i ∧ i < packets n w * w ∧ mem i ≠ 0) :
    ∃ u, randomPointOnSphere Real.sqrt asserts n w mem mem' g = .ok u ∧ ∑ j ∈ Finset.range n, u.lane j ^ 2 < 1 := by
  obtain ⟨u, h1, -, h3⟩ := C151_value asserts n w (by omega) mem mem' g
  refine ⟨u, h1, ?_⟩
  have hf : ∀ i, (fresh n w mem).lane i = mem i := by
    intro i
    simp only [fresh, if_neg (show w ≠ 1 by omega)]
  simp only [hf] at h3
  set P := ∑ i ∈ Finset.Ico n (packets n w * w), mem i * mem i
  set G := ∑ i ∈ Finset.range n, g i * g i
  have hP : 0 < P := by
    obtain ⟨i, a, b, c⟩ := hpad
    have hle := Finset.single_le_sum (f := fun j => mem j * mem j) (fun i _ => mul_self_nonneg _) (Finset.mem_Ico.2 ⟨a, b⟩)
    exact lt_of_lt_of_le (mul_self_pos.2 c) hle
  have hG : 0 ≤ G := Finset.sum_nonneg fun i _ => mul_self_nonneg _
  have : ∑ j ∈ Finset.range n, u.lane j ^ 2 = G / (G + P) := by
    rw [Finset.sum_div]
    refine Finset.sum_congr rfl fun j hj => ?_
    rw [h3 j (Finset.mem_range.1 hj), div_pow, Real.sq_sqrt (by linarith), pow_two]
  rw [this, div_lt_one (by linarith)]
  linarith

/-- The property is false of the default, three components in packets of four. -/
theorem C151_false : ¬ C151Claim 3 4 := by
  intro h
  set S : Set (Fin 3 → ℝ) := {x | ∑ j, x j ^ 2 < 1} with hS
  have hm : MeasurableSet S := measurableSet_lt (by fun_prop) measurable_const
  have h1 := h false (fun _ => 1) (fun _ => 1) S hm
  have e1 : {g : Fin 3 → ℝ | ∃ u, randomPointOnSphere Real.sqrt false 3 4 (fun _ => 1) (fun _ => 1)
      (fun i => if h : i < 3 then g ⟨i, h⟩ else 0) = .ok u ∧ (fun i : Fin 3 => u.lane i) ∈ S} = univ := by
    refine eq_univ_of_forall fun g => ?_
    obtain ⟨u, k1, k2⟩ := C151_padding false 3 4 (by norm_num) (fun _ => 1) (fun _ => 1) (fun i => if h : i < 3 then g ⟨i, h⟩ else 0)
      ⟨3, by norm_num, by decide, by norm_num⟩
    refine ⟨u, k1, ?_⟩
    rw [Finset.sum_range] at k2
    exact k2
  have e2 : {x : Fin 3 → ℝ | ∑ j, x j * x j < 1 ∧ (fun i => x i / √(∑ j, x j * x j)) ∈ S} ⊆ {0} := by
    rintro x ⟨-, hx⟩
    by_contra hne
    have hpos : 0 < ∑ j, x j * x j := by
      refine lt_of_le_of_ne (Finset.sum_nonneg fun i _ => mul_self_nonneg _) fun h0 => hne ?_
      rw [eq_comm, Finset.sum_eq_zero_iff_of_nonneg (fun i _ => mul_self_nonneg _)] at h0
      refine mem_singleton_iff.2 (funext fun i => ?_)
      exact mul_self_eq_zero.1 (h0 i (Finset.mem_univ i))
    simp only [hS, mem_setOf_eq, div_pow, Real.sq_sqrt hpos.le] at hx
    rw [← Finset.sum_div] at hx
    simp only [pow_two] at hx
    rw [div_self hpos.ne'] at hx
    exact lt_irrefl _ hx
  have e3 : volume {x : Fin 3 → ℝ | ∑ j, x j * x j < 1 ∧ (fun i => x i / √(∑ j, x j * x j)) ∈ S} = 0 :=
    measure_mono_null e2 (measure_singleton _)
  rw [e1, e3, ENNReal.zero_div, measure_univ] at h1
  exact one_ne_zero h1

/-- The numbers: if the generator has no number left of an earlier call, the `k` calls of `randomGaussian` return, within `n` passes each, with
the probability `(1 - (1 - π/4)^n)^⌈k/2⌉`, and then they are independent and have the standard normal distribution. -/
theorem C151_numbers (n : ℕ) (y : ℝ) (k : ℕ) (B : Set (Fin k → ℝ)) (hB : MeasurableSet B) :
    fillLoop n (false, y) k {r | r.1 ∈ B} =
      ENNReal.ofReal (1 - (1 - π / 4) ^ n) ^ ((k + 1) / 2) * (Measure.pi fun _ : Fin k => gaussianReal 0 1) B := by
  have h := fill_law n y k (B.indicator 1) (measurable_one.indicator hB)
  rw [lintegral_indicator_one hB] at h
  rw [show ENNReal.ofReal (1 - (1 - π / 4) ^ n) = within n from rfl, ← h,
    show {r : (Fin k → ℝ) × (Bool × ℝ) | r.1 ∈ B} = Prod.fst ⁻¹' B from rfl, ← lintegral_indicator_one (measurable_fst hB)]
  rfl

/-- The whole of `randomPointOnSphere`, packets being full: as the number of passes grows, the probability that it returns a point of `S`
approaches the share of the cone over `S` in the volume of the unit ball.
Missing: vectors with padding. -/
theorem C151_whole_partial (n w : Nat) (hn : 1 ≤ n) (hw : 1 ≤ w) (hdvd : w ∣ n) (y : ℝ) (asserts : Bool) (mem mem' : Nat → ℝ) (S : Set (Fin n → ℝ))
    (hS : MeasurableSet S) :
    Tendsto (fun N => fillLoop N (false, y) n {r | ∃ u, randomPointOnSphere Real.sqrt asserts n w mem mem'
        (fun i => if h : i < n then r.1 ⟨i, h⟩ else 0) = .ok u ∧ (fun i : Fin n => u.lane i) ∈ S}) atTop
      (𝓝 (volume {x : Fin n → ℝ | ∑ j, x j * x j < 1 ∧ (fun i => x i / √(∑ j, x j * x j)) ∈ S} / volume {x : Fin n → ℝ | ∑ j, x j * x j < 1})) := by
  rw [← C151_on_sphere_partial n w hn hw hdvd asserts mem mem' S hS]
  set B := {g : Fin n → ℝ | ∃ u, randomPointOnSphere Real.sqrt asserts n w mem mem'
        (fun i => if h : i < n then g ⟨i, h⟩ else 0) = .ok u ∧ (fun i : Fin n => u.lane i) ∈ S} with hBd
  have hB : B = {g | unitOf g ∈ S} := on_sphere_set n w hw hdvd asserts mem mem' S
  have hm : MeasurableSet B := by rw [hB]; exact measurable_unitOf hS
  have h1 : Tendsto (fun N : ℕ => ENNReal.ofReal (1 - (1 - π / 4) ^ N) ^ ((n + 1) / 2)) atTop (𝓝 1) := by
    have : Tendsto (fun N : ℕ => 1 - (1 - π / 4) ^ N) atTop (𝓝 (1 - 0)) :=
      tendsto_const_nhds.sub (tendsto_pow_atTop_nhds_zero_of_lt_one (by linarith [pi_quarter]) (by linarith [Real.pi_pos]))
    rw [sub_zero] at this
    have h2 := ENNReal.Tendsto.pow (n := (n + 1) / 2) (ENNReal.tendsto_ofReal this)
    rwa [ENNReal.ofReal_one, one_pow] at h2
  have h3 := ENNReal.Tendsto.mul_const (b := (Measure.pi fun _ : Fin n => gaussianReal 0 1) B) h1 (Or.inl one_ne_zero)
  rw [one_mul] at h3
  exact h3.congr fun N => (C151_numbers N y n B hm).symm

/-! Concrete cases. -/

/-- A cube root, and the upper half of the ball. -/
example : (∀ x : ℝ, 0 ≤ x → (fun t : ℝ => t ^ ((1 : ℝ) / 3)) x ^ 3 = x) ∧ MeasurableSet {p : ℝ × ℝ × ℝ | 0 < p.2.2} := by
  refine ⟨fun x hx => ?_, measurableSet_lt measurable_const (by fun_prop)⟩
  simp only
  rw [← Real.rpow_natCast, ← Real.rpow_mul hx]
  norm_num

/-- Four components fill a packet of four; three leave one lane of it. -/
example : 4 ∣ 4 ∧ ¬ 4 ∣ 3 ∧ ∃ i, 3 ≤ i ∧ i < packets 3 4 * 4 := ⟨by decide, by decide, 3, by decide, by decide⟩

end Verif.RandomDist
