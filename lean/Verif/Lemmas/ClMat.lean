import Verif.Model.ClMat
import Verif.Lemmas.ClTypes

/-! Lemmas for C134. -/

namespace Verif.ClTypes

theorem scatter_spec (k : Ty) (g : Nat → List Nat → Out Nat) (out : List Nat) (f : Nat → Nat) (N : Nat) (hb : N * k.bytes ≤ out.length)
    (hg : ∀ p, p < N → g p (encAll k.bytes ((List.range p).map f) ++ out.drop (p * k.bytes)) = .ok (f p)) :
    scatter k g out N = .ok (encAll k.bytes ((List.range N).map f) ++ out.drop (N * k.bytes)) := by
  induction N with
  | zero => simp [scatter, encAll]
  | succ N ih =>
    have hb0 : N * k.bytes ≤ out.length := le_trans (Nat.mul_le_mul_right _ (by omega)) hb
    simp only [scatter, ih hb0 (fun p hp => hg p (by omega)), Out.bind, hg N (by omega)]
    exact store_written k.bytes out f N hb

theorem scatter_cases (k : Ty) (g : Nat → List Nat → Out Nat) (out : List Nat)
    (hg : ∀ p o, (∃ v, g p o = .ok v) ∨ g p o = .ub) (N : Nat) :
    (∃ o, scatter k g out N = .ok o ∧ o.length = out.length) ∨ scatter k g out N = .ub := by
  induction N with
  | zero => exact .inl ⟨out, rfl, rfl⟩
  | succ N ih =>
    simp only [scatter]
    rcases ih with ⟨o, ho, hl⟩ | ho
    · simp only [ho, Out.bind]
      rcases hg N o with ⟨v, hv⟩ | hv
      · simp only [hv]
        cases hs : store k.bytes o N v with
        | ok b => exact .inl ⟨b, rfl, by rw [store_length hs, hl]⟩
        | throw e => unfold store at hs; split at hs <;> cases hs
        | ub => exact .inr rfl
      · right; simp [hv]
    · right; simp [ho, Out.bind]

/-- A kernel is undefined if its last work item is, or if that item's element is outside the destination. -/
theorem scatter_ub (k : Ty) (g : Nat → List Nat → Out Nat) (out : List Nat) (hg : ∀ p o, (∃ v, g p o = .ok v) ∨ g p o = .ub)
    (N : Nat) (h : (∀ o, o.length = out.length → g N o = .ub) ∨ out.length < (N + 1) * k.bytes) : scatter k g out (N + 1) = .ub := by
  simp only [scatter]
  rcases scatter_cases k g out hg N with ⟨o, ho, hl⟩ | ho
  · simp only [ho, Out.bind]
    rcases h with h | h
    · simp [h o hl]
    · rcases hg N o with ⟨v, hv⟩ | hv
      · simp only [hv, store]
        rw [if_neg (by omega)]
      · simp [hv]
  · simp [ho, Out.bind]

theorem load_cases (c : Nat) (b : List Nat) (i : Nat) : (∃ v, load c b i = .ok v) ∨ load c b i = .ub := by
  unfold load
  split
  · exact .inl ⟨_, rfl⟩
  · exact .inr rfl

theorem dotLoop_cases (A : Arith) (k : Ty) (a x : List Nat) (row n : Nat) : ∀ r j acc,
    (∃ v, dotLoop A k a x row n r j acc = .ok v) ∨ dotLoop A k a x row n r j acc = .ub := by
  intro r
  induction r with
  | zero => intro j acc; exact .inl ⟨acc, rfl⟩
  | succ r ih =>
    intro j acc
    simp only [dotLoop]
    rcases load_cases k.bytes a (row * n + j) with ⟨v, hv⟩ | hv
    · rcases load_cases k.bytes x j with ⟨w, hw⟩ | hw
      · simp only [hv, hw, Out.bind]; exact ih _ _
      · right; simp [hv, hw, Out.bind]
    · right; simp [hv, Out.bind]

/-- The loop is undefined if one of its last loads is. -/
theorem dotLoop_ub (A : Arith) (k : Ty) (a x : List Nat) (row n : Nat) : ∀ r j acc,
    (load k.bytes a (row * n + (j + r)) = .ub ∨ load k.bytes x (j + r) = .ub) → dotLoop A k a x row n (r + 1) j acc = .ub := by
  intro r
  induction r with
  | zero =>
    intro j acc h
    rw [Nat.add_zero] at h
    simp only [dotLoop]
    rcases load_cases k.bytes a (row * n + j) with ⟨v, hv⟩ | hv
    · rcases h with h | h
      · rw [hv] at h; cases h
      · simp [hv, h, Out.bind]
    · simp [hv, Out.bind]
  | succ r ih =>
    intro j acc h
    rw [dotLoop]
    rcases load_cases k.bytes a (row * n + j) with ⟨v, hv⟩ | hv
    · rcases load_cases k.bytes x j with ⟨w, hw⟩ | hw
      · simp only [hv, hw, Out.bind]
        apply ih
        rw [show j + 1 + r = j + (r + 1) by ring]
        exact h
      · simp [hv, hw, Out.bind]
    · simp [hv, Out.bind]

theorem gemvItem_cases (A : Arith) (k : Ty) (al be : Nat) (a x : List Nat) (n row : Nat) (y : List Nat) :
    (∃ v, gemvItem A k al be a x n row y = .ok v) ∨ gemvItem A k al be a x n row y = .ub := by
  unfold gemvItem
  rcases dotLoop_cases A k a x row n n 0 0 with ⟨v, hv⟩ | hv
  · rcases load_cases k.bytes y row with ⟨w, hw⟩ | hw
    · exact .inl ⟨A.bin .add k (A.bin .mul k al v) (A.bin .mul k be w), by simp [hv, hw, Out.bind]⟩
    · right; simp [hv, hw, Out.bind]
  · right; simp [hv, Out.bind]

theorem prodTy_eq (ta tb : Ty) : prodTy ta tb = usual ta tb := by cases ta <;> cases tb <;> rfl

/-- Loading an element as its own type, or one of the same size. -/
theorem load_encAll (c : Nat) (vs rest : List Nat) (i : Nat) (h : i < vs.length) (hv : vs[i] < 256 ^ c) :
    load c (encAll c vs ++ rest) i = .ok vs[i] := by
  rw [load_eq _ _ _ (by rw [List.length_append, encAll_length]; exact le_trans (Nat.mul_le_mul_right _ h) (Nat.le_add_right _ _)),
    slice_encAll c vs rest i h, dec_enc _ _ hv]

/-- The dot product, from the values. -/
def dotVal (A : Arith) (k : Ty) (f g : Nat → Nat) : Nat → Nat
  | 0 => 0
  | r + 1 => A.bin .add k (dotVal A k f g r) (A.bin .mul k (f r) (g r))

theorem dotLoop_spec (A : Arith) (k : Ty) (a x : List Nat) (row n : Nat) (f g : Nat → Nat)
    (ha : ∀ j, j < n → load k.bytes a (row * n + j) = .ok (f j)) (hx : ∀ j, j < n → load k.bytes x j = .ok (g j)) :
    ∀ r j, j + r = n → dotLoop A k a x row n r j (dotVal A k f g j) = .ok (dotVal A k f g n) := by
  intro r
  induction r with
  | zero => intro j h; simp only [dotLoop]; rw [show j = n by omega]
  | succ r ih =>
    intro j h
    simp only [dotLoop, ha j (by omega), hx j (by omega), Out.bind]
    exact ih (j + 1) (by omega)

end Verif.ClTypes
