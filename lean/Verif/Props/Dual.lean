import Verif.Lemmas.Dual

/-!
# C45, C46: dual numbers

C45 is false at two kinds of points: `pow(x, 0)` at `x = 0` and `pow(0, y)` with a positive `y`.
Both are constant functions nearby, yet the derivative formulas compute `0 * inf`.
C46 is false for `*=` and `/=`, which use the updated value in the derivative.
-/

namespace Verif.DualM

open Filter Topology

/-- **C45 (claim).** Where every operation of an expression is differentiable, evaluation on duals yields the value and
its derivative. -/
def C45Claim : Prop :=
  ∀ (e : Ex) (γ : ℝ → Nat → ℝ) (γ' : Nat → ℝ) (t₀ : ℝ), (∀ i, HasDerivAt (fun t => γ t i) (γ' i) t₀) →
    e.SmoothAt (γ t₀) → e.Differentiates γ γ' t₀

/-- **C45 (false).** `pow(x, 0)` is the constant 1, but at `x = 0` the library's derivative is `0 * pow(0, -1)`. -/
theorem C45_false : ¬ C45Claim := by
  intro h
  obtain ⟨g, d, -, -, h3⟩ := h (.opS .pow (.var 0) 0) (fun t _ => t) (fun _ => 1) 0 (fun _ => hasDerivAt_id 0)
    ⟨trivial, fun x _ => ⟨fun _ => 1, Eventually.of_forall fun t => by
      have := cPow_int t 0 (Or.inr le_rfl)
      simpa [Op.val] using this, differentiableAt_const 1⟩⟩
  have hn : ¬ (1 : ℝ) < 0 := by norm_num
  simp [Ex.dual, Op.dualS, dPowS, cPow, hn] at h3

/-- **C45 (the second kind of point).** `pow(0, y)` is the constant 0 near every positive `y`, and the library computes
`log(0) * 0` for its derivative. -/
theorem C45_zero_base (y : ℝ) (hy : 0 < y) :
    Smooth (fun t => cPow 0 t) y ∧ ∀ d, dSPow 0 ⟨y, d⟩ = none := by
  refine ⟨⟨fun _ => 0, ?_, differentiableAt_const 0⟩, fun d => ?_⟩
  · filter_upwards [nhds_pos hy] with t ht
    simp [cPow, ht, ht.ne']
  · simp [dSPow, cPow, cLog, hy, hy.ne']

/-- **C45 (all other points).** For every expression, every differentiable curve of inputs and every point at which each
operation is differentiable and those two powers do not occur, evaluation on duals yields the value and its derivative. -/
theorem C45_dual_derivative_partial (e : Ex) (γ : ℝ → Nat → ℝ) (γ' : Nat → ℝ) (t₀ : ℝ)
    (hγ : ∀ i, HasDerivAt (fun t => γ t i) (γ' i) t₀) (hs : e.SmoothAt (γ t₀)) (hz : e.NoZeroPow (γ t₀)) :
    e.Differentiates γ γ' t₀ := e.differentiates hγ hs hz

/-- **C45 (one variable).** On `(x, 1)` the result is `(f(x), f'(x))`. -/
theorem C45_one_variable_partial (e : Ex) (x : ℝ) (hs : e.SmoothAt fun _ => x) (hz : e.NoZeroPow fun _ => x) :
    ∃ f : ℝ → ℝ, (∀ᶠ t in 𝓝 x, e.val (fun _ => t) = some (f t)) ∧ DifferentiableAt ℝ f x ∧
      e.dual (fun _ => ⟨x, 1⟩) = some ⟨f x, deriv f x⟩ := by
  obtain ⟨g, d, h1, h2, h3⟩ := e.differentiates (γ := fun t _ => t) (γ' := fun _ => 1) (t₀ := x)
    (fun _ => hasDerivAt_id x) hs hz
  exact ⟨g, h1, h2.differentiableAt, by rw [h2.deriv]; exact h3⟩

/-- The hypotheses are met by `sin(x) * x` at every point. -/
example (x : ℝ) : (Ex.op .mul (.fn .sin (.var 0)) (.var 0)).SmoothAt (fun _ => x) ∧
    (Ex.op .mul (.fn .sin (.var 0)) (.var 0)).NoZeroPow (fun _ => x) := by
  refine ⟨⟨⟨trivial, fun y _ => ?_⟩, trivial, fun y z _ _ => ?_⟩, trivial, trivial⟩
  · exact ⟨Real.sin, Eventually.of_forall fun _ => rfl, Real.differentiableAt_sin⟩
  · exact ⟨fun p => p.1 * p.2, Eventually.of_forall fun _ => rfl,
      differentiableAt_fst.mul differentiableAt_snd⟩

/-- They are met by `pow(x, -3)` at every negative point. -/
example (x : ℝ) (hx : x < 0) : (Ex.opS .pow (.var 0) (-3)).SmoothAt (fun _ => x) ∧
    (Ex.opS .pow (.var 0) (-3)).NoZeroPow (fun _ => x) := by
  refine ⟨⟨trivial, fun y hy => ?_⟩, trivial, fun _ h => absurd h (by norm_num)⟩
  have hxy : x = y := by simpa [Ex.val] using hy
  subst hxy
  refine ⟨fun t => t ^ (-3 : ℤ), ?_, (hasDerivAt_zpow (-3) x (Or.inl hx.ne)).differentiableAt⟩
  filter_upwards [continuousAt_id.eventually_ne hx.ne] with t ht
  have := cPow_int t (-3) (Or.inl ht)
  simpa [Op.val] using this

/-! ## Compound assignment -/

section
variable {K : Type} [Field K] [DecidableEq K]

/-- The four compound assignments of duals. -/
inductive Compound where
  | add | sub | mul | div

/-- The assignment operators of the class; the object is at `i`, the operand at `j`. -/
def Compound.run (o : Compound) (m : Store K) (i j : Nat) : Option (Store K) :=
  match o with
  | .add => some (addAssign m i j)
  | .sub => some (subAssign m i j)
  | .mul => some (mulAssign m i j)
  | .div => divAssign m i j

/-- The binary operators. -/
def Compound.binary (o : Compound) (a b : Dual K) : Option (Dual K) :=
  match o with
  | .add => some (DualM.add a b)
  | .sub => some (DualM.sub a b)
  | .mul => some (DualM.mul a b)
  | .div => DualM.div a b

/-- The assignment leaves in `i` the value of the binary operator and every other object alone. -/
def Compound.Right (o : Compound) (m : Store K) (i j : Nat) : Prop :=
  ∀ r, o.binary (m i) (m j) = some r → ∃ m', o.run m i j = some m' ∧ m' i = r ∧ ∀ k, k ≠ i → m' k = m k

/-- **C46 (claim).** -/
def C46Claim : Prop := ∀ (o : Compound) (m : Store ℚ) (i j : Nat), o.Right m i j

/-- **C46 (exactly when `*=` is right).** For distinct objects the derivative is right iff `a·b' = a·b·b'`;
`a *= a` is right iff `a·a' = a²·a'`, up to a factor two. -/
theorem C46_mulAssign_iff (m : Store K) (i j : Nat) :
    Compound.mul.Right m i j ↔
      if i = j then (m i).derivative * (m i).value * 2 = (m i).derivative * ((m i).value * (m i).value) * 2
      else (m i).value * (m j).derivative = (m i).value * (m j).value * (m j).derivative := by
  by_cases h : i = j
  · subst h
    simp only [Compound.Right, Compound.binary, Compound.run, if_true, Option.some.injEq, forall_eq', exists_eq_left',
      mulAssign, setDeriv, setValue, DualM.mul]
    constructor
    · rintro ⟨h1, -⟩
      have := congrArg Dual.derivative h1
      simp at this
      linear_combination -this
    · intro h1
      refine ⟨?_, fun k hk => by simp [hk]⟩
      ext <;> simp
      linear_combination -h1
  · have h' : ¬ j = i := fun e => h e.symm
    have e1 : mulAssign m i j i = ⟨(m i).value * (m j).value,
        (m i).derivative * (m j).value + (m i).value * (m j).value * (m j).derivative⟩ := by
      simp [mulAssign, setDeriv, setValue, h']
    simp only [Compound.Right, Compound.binary, Compound.run, if_neg h, Option.some.injEq, forall_eq', exists_eq_left',
      e1, DualM.mul]
    constructor
    · rintro ⟨h1, -⟩
      have := congrArg Dual.derivative h1
      dsimp only at this
      linear_combination -this
    · intro h1
      refine ⟨?_, fun k hk => by simp [mulAssign, setDeriv, setValue, hk]⟩
      rw [← h1]

/-- **C46 (exactly when `/=` is right).** For distinct objects and a nonzero divisor iff `a·b' = (a/b)·b'`;
`a /= a` is always right. -/
theorem C46_divAssign_iff (m : Store K) (i j : Nat) (hb : (m j).value ≠ 0) :
    Compound.div.Right m i j ↔
      (i = j ∨ (m i).value * (m j).derivative = (m i).value / (m j).value * (m j).derivative) := by
  have hbb : (m j).value * (m j).value ≠ 0 := mul_ne_zero hb hb
  by_cases h : i = j
  · subst h
    simp [Compound.Right, Compound.binary, Compound.run, divAssign, DualM.div, cDiv, hb, setDeriv, setValue]
    exact ⟨by ring, fun k hk => by simp [hk]⟩
  · have h' : ¬ j = i := fun e => h e.symm
    simp only [Compound.Right, Compound.binary, Compound.run, divAssign, DualM.div, cDiv, hb, hbb, setDeriv, setValue,
      h, h', if_false, Option.bind_eq_bind, Option.bind_some, Option.some.injEq, forall_eq', if_true, exists_eq_left',
      false_or]
    constructor
    · rintro ⟨h1, -⟩
      have := congrArg Dual.derivative h1
      simp at this
      field_simp at this ⊢
      linear_combination this
    · intro h1
      refine ⟨?_, fun k hk => by simp [hk]⟩
      rw [h1]

/-- **C46 (false).** `(2, 0) *= (3, 1)` leaves derivative 6 instead of 2, and `(2, 0) /= (3, 1)` is wrong as well. -/
theorem C46_false : ¬ C46Claim ∧
    ¬ (∀ (m : Store ℚ) (i j : Nat), Compound.mul.Right m i j) ∧
    ¬ (∀ (m : Store ℚ) (i : Nat), Compound.mul.Right m i i) ∧
    ¬ (∀ (m : Store ℚ) (i j : Nat), (m j).value ≠ 0 → Compound.div.Right m i j) := by
  have h1 : ¬ (∀ (m : Store ℚ) (i j : Nat), Compound.mul.Right m i j) := by
    intro h
    have := (C46_mulAssign_iff _ 0 1).1 (h (fun k => if k = 0 then ⟨2, 0⟩ else ⟨3, 1⟩) 0 1)
    norm_num at this
  refine ⟨fun h => h1 fun m i j => h .mul m i j, h1, fun h => ?_, fun h => ?_⟩
  · have := (C46_mulAssign_iff _ 0 0).1 (h (fun _ => ⟨2, 1⟩) 0)
    norm_num at this
  · have := (C46_divAssign_iff _ 0 1 (by norm_num)).1
      (h (fun k => if k = 0 then ⟨2, 0⟩ else ⟨3, 1⟩) 0 1 (by norm_num))
    norm_num at this

/-- **C46 (partial).** `+=` and `-=` agree with `+` and `-` for all duals, also for `a += a` and `a -= a`.
The value part of `*=` and `/=` is right; so are the assignments with a scalar that is a separate object.
Missing: the derivative part of `*=` and `/=`. -/
theorem C46_compound_partial (m : Store K) (i j : Nat) (a : Dual K) (c : K) :
    Compound.add.Right m i j ∧ Compound.sub.Right m i j ∧
    (mulAssign m i j i).value = (DualM.mul (m i) (m j)).value ∧
    (∀ r, DualM.div (m i) (m j) = some r → ∃ m', divAssign m i j = some m' ∧ (m' i).value = r.value) ∧
    addAssignS a c = addS a c ∧ subAssignS a c = subS a c ∧ mulAssignS a c = mulS a c ∧ divAssignS a c = divS a c := by
  refine ⟨?_, ?_, ?_, ?_, rfl, rfl, rfl, rfl⟩
  · intro r hr
    simp only [Compound.binary, Option.some.injEq] at hr
    subst hr
    refine ⟨_, rfl, ?_, fun k hk => by simp [addAssign, setDeriv, setValue, hk]⟩
    by_cases h : j = i
    · subst h; simp [addAssign, setDeriv, setValue, DualM.add]
    · simp [addAssign, setDeriv, setValue, DualM.add, h]
  · intro r hr
    simp only [Compound.binary, Option.some.injEq] at hr
    subst hr
    refine ⟨_, rfl, ?_, fun k hk => by simp [subAssign, setDeriv, setValue, hk]⟩
    by_cases h : j = i
    · subst h; simp [subAssign, setDeriv, setValue, DualM.sub]
    · simp [subAssign, setDeriv, setValue, DualM.sub, h]
  · simp [mulAssign, setDeriv, setValue, DualM.mul]
  · intro r hr
    by_cases hb : (m j).value = 0
    · simp [DualM.div, cDiv, hb] at hr
    · by_cases h : j = i
      · subst h
        simp [DualM.div, cDiv, hb] at hr
        simp [divAssign, cDiv, hb, setDeriv, setValue, ← hr]
      · simp [DualM.div, cDiv, hb] at hr
        simp [divAssign, cDiv, hb, setDeriv, setValue, ← hr, h]

end

end Verif.DualM
