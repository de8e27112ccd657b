import Verif.NN.DtypeModel
/-!
# C119: dtypes of layers

The specification: `Below` is the order of JAX's promotion lattice, `Lub` its least upper bounds,
`Available` says which dtypes there are without 64-bit mode, `bits` is the precision of a dtype.
-/

namespace Verif.NN.Dtypes

open Dtype

/-! Dtypes and settings can be enumerated. -/

def allDtypes : List Dtype :=
  [.bool, u8, u16, u32, u64, i8, i16, i32, i64, bf16, f16, f32, f64, c64, c128]

theorem mem_allDtypes (d : Dtype) : d ∈ allDtypes := by cases d <;> simp [allDtypes]

instance decAllDtype (p : Dtype → Prop) [DecidablePred p] : Decidable (∀ d, p d) :=
  decidable_of_iff (∀ d ∈ allDtypes, p d) ⟨fun h d => h d (mem_allDtypes d), fun h d _ => h d⟩

instance decExDtype (p : Dtype → Prop) [DecidablePred p] : Decidable (∃ d, p d) :=
  decidable_of_iff (∃ d ∈ allDtypes, p d)
    ⟨fun ⟨d, _, h⟩ => ⟨d, h⟩, fun ⟨d, h⟩ => ⟨d, mem_allDtypes d, h⟩⟩

instance decAllOption (p : Option Dtype → Prop) [DecidablePred p] : Decidable (∀ d, p d) :=
  decidable_of_iff (p none ∧ ∀ d, p (some d))
    ⟨fun h d => match d with | none => h.1 | some d => h.2 d, fun h => ⟨h none, fun d => h (some d)⟩⟩

instance decAllBool (p : Bool → Prop) [DecidablePred p] : Decidable (∀ b, p b) :=
  decidable_of_iff (p false ∧ p true)
    ⟨fun h b => match b with | false => h.1 | true => h.2, fun h => ⟨h false, h true⟩⟩

instance decAllConfig (p : Config → Prop) [DecidablePred p] : Decidable (∀ c, p c) :=
  decidable_of_iff (∀ a b : Bool, p ⟨a, b⟩) ⟨fun h c => h c.x64 c.strict, fun h a b => h ⟨a, b⟩⟩

instance : DecidableEq (Except Fault Dtype) := inferInstance
instance : DecidableEq (Except Fault Run) := inferInstance
instance : DecidableEq (Except Fault (Dtype × Dtype)) := inferInstance
instance : DecidableEq (Except Fault (Dtype × Batch)) := inferInstance

/-! ## Specification -/

/-- The order of the promotion lattice: repeatedly step to a dtype just above. -/
inductive Below : Dtype → Dtype → Prop
  | refl (a : Dtype) : Below a a
  | step {a b c : Dtype} : b ∈ a.above → Below b c → Below a c

/-- Least upper bound. -/
def Lub (a b d : Dtype) : Prop := Below a d ∧ Below b d ∧ ∀ u, Below a u → Below b u → Below d u

/-- Without 64-bit mode there are no 64-bit arrays. -/
def Available (c : Config) (d : Dtype) : Prop := c.x64 = false → d ∉ [u64, i64, f64, c128]

instance (c : Config) (d : Dtype) : Decidable (Available c d) := by unfold Available; infer_instance

/-- Precision of floating point dtypes, in bits (per part, for complex ones). -/
def bits : Dtype → Nat
  | bf16 | f16 => 16
  | f32 | c64 => 32
  | f64 | c128 => 64
  | _ => 0

/-- `s` is a floating point dtype of at least 32 bits which is as precise as `x`, and complex only
if `x` is. -/
def Wide (x s : Dtype) : Prop := bits s = max 32 (bits x) ∧ (s ∈ [c64, c128] → x ∈ [c64, c128])

instance (x s : Dtype) : Decidable (Wide x s) := by unfold Wide; infer_instance

/-- The floating point dtype in which averages of `x` are. -/
def Averaged (c : Config) (x : Dtype) : Dtype :=
  if x ∈ [bf16, f16, f32, f64, c64, c128] then x else if c.x64 then f64 else f32

/-- The dtype that arrays asked for with `dtype=d` have: 32 or 64 bit floats by default; a 64-bit
dtype is not available without 64-bit mode. -/
def Requested (c : Config) : Option Dtype → Dtype
  | none => if c.x64 then f64 else f32
  | some f64 => if c.x64 then f64 else f32
  | some c128 => if c.x64 then c128 else c64
  | some i64 => if c.x64 then i64 else i32
  | some u64 => if c.x64 then u64 else u32
  | some d => d

/-- Everything in an affine map. -/
def Affine.arrays (L : Affine) : List Dtype := L.weight :: L.bias.toList

/-- Everything a layer holds, parameters and state, but for the scale of `WeightNorm`, which is real
even if the weight is complex. -/
def Layer.arrays : Layer → List Dtype
  | .linear L => L.arrays
  | .mlp Ls => Ls.flatMap Affine.arrays
  | .conv L => L.arrays
  | .layerNorm w b => w.toList ++ b.toList
  | .groupNorm wb => wb.toList.flatMap fun p => [p.1, p.2]
  | .rmsNorm w b => w.toList ++ b.toList
  | .batchNorm B _ => (B.affine.toList.flatMap fun p => [p.1, p.2]) ++ [B.mean, B.var]
  | .attention A _ _ => A.query.arrays ++ A.key.arrays ++ A.value.arrays ++ A.output.arrays
  | .spectral L _ uv _ => L.arrays ++ [uv.1, uv.2]
  | .weightNorm L _ => L.arrays
  | .rope d => [d]
  | .dropout _ => []
  | .prelu s => s.toList

/-- Constructors that draw random numbers. -/
def Ask.Random : Ask → Prop
  | .linear _ | .mlp .. | .conv _ | .attention .. | .spectral .. | .weightNorm _ => True
  | _ => False

/-! ## The promotion lattice -/

/-- Reachability, computed. -/
def belowN : Nat → Dtype → Dtype → Bool
  | 0, a, b => decide (a = b)
  | n + 1, a, b => decide (a = b) || a.above.any fun e => belowN n e b

theorem belowN_sound {n : Nat} : ∀ {a b : Dtype}, belowN n a b = true → Below a b := by
  induction n with
  | zero => intro a b h; simp [belowN] at h; exact h ▸ .refl a
  | succ n ih =>
    intro a b h
    simp only [belowN, Bool.or_eq_true, decide_eq_true_eq, List.any_eq_true] at h
    rcases h with h | ⟨e, he, h⟩
    · exact h ▸ .refl a
    · exact .step he (ih h)

theorem belowN_step : ∀ a b c : Dtype, b ∈ a.above → belowN 10 b c = true → belowN 10 a c = true := by
  decide +kernel

theorem below_iff (a b : Dtype) : Below a b ↔ belowN 10 a b = true := by
  constructor
  · intro h
    induction h with
    | refl a => cases a <;> rfl
    | step he _ ih => exact belowN_step _ _ _ he ih
  · exact belowN_sound

instance (a b : Dtype) : Decidable (Below a b) := decidable_of_iff _ (below_iff a b).symm

instance (a b d : Dtype) : Decidable (Lub a b d) := by unfold Lub; infer_instance

/-- `join` is the least upper bound of JAX's lattice, but for `uint64` with a signed integer, where
JAX's bound is a weakly typed float. -/
theorem join_lub : ∀ a b : Dtype,
    ¬ (a = u64 ∧ b ∈ [i8, i16, i32, i64]) → ¬ (b = u64 ∧ a ∈ [i8, i16, i32, i64]) → Lub a b (join a b) := by
  decide +kernel

theorem lub_unique {a b d e : Dtype} (h : Lub a b d) (h' : Lub a b e) : d = e := by
  have anti : ∀ d e : Dtype, Below d e → Below e d → d = e := by decide +kernel
  exact anti d e (h.2.2 e h'.1 h'.2.1) (h'.2.2 d h.1 h.2.1)

/-! ## Lemmas -/

@[simp] theorem op_same (c : Config) (a : Dtype) : op c a a = .ok a := by simp [op]

theorem scalar_inexact (c : Config) {a : Dtype} (h : a.isInexact = true) : scalar c a = .ok a := by
  simp [scalar, h]

theorem mean_inexact (c : Config) {a : Dtype} (h : a.isInexact = true) : mean c a = a := by simp [mean, h]

@[simp] theorem optCast_same (c : Config) (a : Dtype) (b : Option Dtype) : optCast c a a b = .ok a := by
  cases b <;> simp [optCast, cast]

/-- The dtype normalisation layers work in. -/
theorem work_spec : ∀ (c : Config) (x : Dtype), Available c x → ∃ w, op c.standard x f32 = .ok w ∧
    w.isInexact = true ∧ Wide x w ∧ (x ∉ [c64, c128] → w.real = w) := by
  decide +kernel

theorem work_complex : ∀ (c : Config) (x : Dtype), Available c x → x ∈ [c64, c128] →
    op c.standard x f32 = .ok x ∧ op c x x.real = (if c.strict then .error .promotion else .ok x) ∧
    x.real.isInexact = true ∧ x.isInexact = true ∧ Wide x x.real ∧ Wide x x := by
  decide +kernel

/-! ## Normalisation layers -/

/-- **LayerNorm and GroupNorm keep the dtype of their input, and compute with at least 32 bits.**
Whatever the dtypes of weight and bias. The only inputs refused are complex ones under strict
promotion. -/
theorem layer_norm_dtype (c : Config) (w b : Option Dtype) (x : Dtype) (hx : Available c x) :
    if c.strict = true ∧ x ∈ [c64, c128] then layerNorm c w b x = .error .promotion
    else ∃ r, layerNorm c w b x = .ok r ∧ r.out = x ∧ ∀ s ∈ r.steps, Wide x s := by
  by_cases hc : x ∈ [c64, c128]
  · obtain ⟨h1, h2, h3, h4, h5, h6⟩ := work_complex c x hx hc
    by_cases hs : c.strict = true
    · simp [hs, hc, layerNorm, h1, bind, Except.bind, cast, mean_inexact c h4, scalar_inexact c h3, h2]
    · rw [if_neg (by simp [hs])]
      rw [if_neg hs] at h2
      refine ⟨⟨[x, x, x.real, x.real, x, x, x, x], x⟩, ?_, rfl, ?_⟩
      · simp [layerNorm, h1, bind, Except.bind, pure, Except.pure, cast, mean_inexact c h4, scalar_inexact c h3, h2]
      · simp [h5, h6]
  · obtain ⟨k, h1, h2, h3, h4⟩ := work_spec c x hx
    rw [if_neg (by simp [hc])]
    refine ⟨⟨[k, k, k, k, k, k, k, k], x⟩, ?_, rfl, ?_⟩
    · simp [layerNorm, h1, bind, Except.bind, pure, Except.pure, cast, mean_inexact c h2, h4 hc, scalar_inexact c h2]
    · simp [h3]

@[inherit_doc layer_norm_dtype]
theorem group_norm_dtype (c : Config) (wb : Option (Dtype × Dtype)) (x : Dtype) (hx : Available c x) :
    if c.strict = true ∧ x ∈ [c64, c128] then groupNorm c wb x = .error .promotion
    else ∃ r, groupNorm c wb x = .ok r ∧ r.out = x ∧ ∀ s ∈ r.steps, Wide x s := by
  by_cases hc : x ∈ [c64, c128]
  · obtain ⟨h1, h2, h3, h4, h5, h6⟩ := work_complex c x hx hc
    by_cases hs : c.strict = true
    · simp [hs, hc, groupNorm, h1, bind, Except.bind, cast, mean_inexact c h4, scalar_inexact c h3, h2]
    · rw [if_neg (by simp [hs])]
      rw [if_neg hs] at h2
      refine ⟨⟨[x, x, x.real, x.real, x, x, x, x], x⟩, ?_, rfl, ?_⟩
      · simp [groupNorm, h1, bind, Except.bind, pure, Except.pure, cast, mean_inexact c h4, scalar_inexact c h3, h2]
      · simp [h5, h6]
  · obtain ⟨k, h1, h2, h3, h4⟩ := work_spec c x hx
    rw [if_neg (by simp [hc])]
    refine ⟨⟨[k, k, k, k, k, k, k, k], x⟩, ?_, rfl, ?_⟩
    · simp [groupNorm, h1, bind, Except.bind, pure, Except.pure, cast, mean_inexact c h2, h4 hc, scalar_inexact c h2]
    · simp [h3]

/-- **RMSNorm keeps the dtype of its input, and computes with at least 32 bits**, for every input. -/
theorem rms_norm_dtype (c : Config) (w b : Option Dtype) (x : Dtype) (hx : Available c x) :
    ∃ r, rmsNorm c w b x = .ok r ∧ r.out = x ∧ ∀ s ∈ r.steps, Wide x s := by
  obtain ⟨k, h1, h2, h3, _⟩ := work_spec c x hx
  refine ⟨⟨[k, k, k, k, k, k], x⟩, ?_, rfl, ?_⟩
  · simp [rmsNorm, h1, bind, Except.bind, pure, Except.pure, cast, mean_inexact c h2, scalar_inexact c h2]
  · simp [h3]

/-- The hypotheses can be met: half precision input, single precision parameters, strict promotion. -/
example : layerNorm ⟨false, true⟩ (some f32) (some f32) bf16 =
    .ok ⟨[f32, f32, f32, f32, f32, f32, f32, f32], bf16⟩ := by decide

/-! ## Attention -/

/-- **Attention weights** are computed with at least 32 bits and have the dtype of queries and keys,
promoted; strict promotion asks queries and keys to agree. -/
theorem attention_weights_dtype : ∀ (c : Config) (mask : Bool) (q k : Dtype), Available c q → Available c k →
    q.isFloat = true → k.isFloat = true →
    if c.strict = true ∧ q ≠ k then attentionWeights c mask q k = .error .promotion
    else ∃ d s, attentionWeights c mask q k = .ok ⟨[s], d⟩ ∧ Lub q k d ∧ Wide d s := by
  decide +kernel

/-! ## BatchNorm -/

/-- **Training BatchNorm accepts exactly the inputs whose averages have the dtype of the running
statistics**, leaves the dtypes of these as they are, and returns that dtype. An input of a higher
dtype is a ValueError from `State.set`, any other a TypeError from `lax.select`; under strict
promotion both are TypePromotionErrors. -/
theorem batch_norm_training (c : Config) (d : Dtype) (affine : Bool) (x : Dtype) (hd : Available c d) (hx : Available c x)
    (hi : d.isInexact = true) :
    batchNorm c ⟨if affine then some (d, d) else none, d, d⟩ false x =
      if c.strict = true then
        if x = d then .ok (d, ⟨if affine then some (d, d) else none, d, d⟩) else .error .promotion
      else if Averaged c x = d then .ok (d, ⟨if affine then some (d, d) else none, d, d⟩)
      else if Below d (Averaged c x) then .error .value
      else .error .type := by
  revert c d affine x
  decide +kernel

/-- **BatchNorm in inference mode** accepts inputs of every dtype and returns the promoted dtype;
strict promotion asks for the dtype of the layer. -/
theorem batch_norm_inference (c : Config) (d : Dtype) (affine : Bool) (x : Dtype) (hd : Available c d) (hx : Available c x)
    (hi : d.isInexact = true) :
    if c.strict = true ∧ x ≠ d then batchNorm c ⟨if affine then some (d, d) else none, d, d⟩ true x = .error .promotion
    else ∃ e, batchNorm c ⟨if affine then some (d, d) else none, d, d⟩ true x =
      .ok (e, ⟨if affine then some (d, d) else none, d, d⟩) ∧ Lub x d e := by
  revert c d affine x
  decide +kernel

/-- A default BatchNorm in training refuses half precision inputs, and a half precision one refuses
single precision inputs. -/
example : batchNorm ⟨false, false⟩ (newBatchNorm ⟨false, false⟩ none true) false bf16 = .error .type ∧
    batchNorm ⟨false, false⟩ (newBatchNorm ⟨false, false⟩ (some bf16) true) false f32 = .error .value := by decide

/-! ## Linear layers, convolutions, RoPE, PReLU, Embedding -/

/-- **Linear returns the promoted dtype of weight and input**; strict promotion asks them to agree. -/
theorem linear_dtype (c : Config) (w : Dtype) (bias : Bool) (x : Dtype) (hw : Available c w) (hx : Available c x)
    (hi : w.isInexact = true) :
    if c.strict = true ∧ x ≠ w then linear c ⟨w, if bias then some w else none⟩ x = .error .promotion
    else ∃ e, linear c ⟨w, if bias then some w else none⟩ x = .ok e ∧ Lub w x e := by
  revert c w bias x
  decide +kernel

/-- **Conv accepts only inputs of the weight's dtype**, whichever promotion is set. -/
theorem conv_dtype (c : Config) (w : Dtype) (bias : Bool) (x : Dtype) :
    conv c ⟨w, if bias then some w else none⟩ x = if x = w then .ok w else .error .type := by
  by_cases h : x = w <;> cases bias <;> simp [conv, same, h, opt, bind, Except.bind]

/-- **RoPE returns the dtype of its input**; strict promotion asks for the dtype of the layer. -/
theorem rope_dtype (c : Config) (d x : Dtype) :
    rope c d x = if c.strict = true ∧ x ≠ d then .error .promotion else .ok x := by
  by_cases h : x = d <;> by_cases hs : c.strict = true <;> simp [rope, op, h, hs, bind, Except.bind, cast, pure, Except.pure]

/-- **PReLU promotes even under strict promotion**; a slope from a Python float keeps the dtype of
inexact inputs. -/
theorem prelu_dtype (c : Config) (x : Dtype) (slope : Option Dtype) (hx : Available c x) (hi : x.isInexact = true)
    (hs : ∀ s, slope = some s → Available c s) :
    ∃ e, prelu c x slope = .ok e ∧ (slope = none → e = x) ∧ ∀ s, slope = some s → Lub s x e := by
  cases slope with
  | none =>
    refine ⟨x, ?_, fun _ => rfl, by simp⟩
    simp [prelu, scalar_inexact c.standard hi, bind, Except.bind]
  | some s =>
    have key : ∀ (c : Config) (x s : Dtype), Available c x → x.isInexact = true → Available c s →
        ∃ e, prelu c x (some s) = .ok e ∧ Lub s x e := by decide +kernel
    obtain ⟨e, h1, h2⟩ := key c x s hx hi (hs s rfl)
    exact ⟨e, h1, by simp, fun t ht => by cases ht; exact h2⟩

/-! ## SpectralNorm -/

theorem power_steps_const (c : Config) {w d : Dtype} (hd : d.isInexact = true) (h : op c w d = .ok d) (n : Nat) :
    powerSteps c w n (d, d) = .ok (d, d) := by
  induction n with
  | zero => rfl
  | succ n ih => simp [powerSteps, powerStep, h, scalar_inexact c hd, bind, Except.bind, pure, Except.pure, ih]

theorem power_step_spec : ∀ (c : Config) (w d : Dtype), c.strict = false → Available c w → Available c d →
    w.isInexact = true → d.isInexact = true →
    ∃ e, powerStep c w (d, d) = .ok (e, e) ∧ op c w e = .ok e ∧ e.isInexact = true ∧ Lub w d e := by
  decide +kernel

/-- **Training SpectralNorm** works if the state's dtype is the weight's or above it in the lattice,
or if there are no power iterations; otherwise the new vectors are refused by `State.set`. -/
theorem spectral_training (c : Config) (w d : Dtype) (n : Nat) (hs : c.strict = false) (hw : Available c w)
    (hd : Available c d) (iw : w.isInexact = true) (id : d.isInexact = true) :
    spectralUsed c w n (d, d) false = if n = 0 ∨ Below w d then .ok (d, d) else .error .value := by
  obtain ⟨e, h1, h2, h3, h4⟩ := power_step_spec c w d hs hw hd iw id
  cases n with
  | zero => simp [spectralUsed, powerSteps, set, bind, Except.bind]
  | succ n =>
    have h5 : powerSteps c w (n + 1) (d, d) = .ok (e, e) := by
      simp [powerSteps, h1, bind, Except.bind, power_steps_const c h3 h2]
    by_cases hb : Below w d
    · have : e = d := by
        refine lub_unique h4 ⟨hb, .refl d, fun u _ h => h⟩
      subst this
      simp [spectralUsed, h5, set, hb, bind, Except.bind]
    · have : d ≠ e := fun h => hb (h ▸ h4.1)
      simp [spectralUsed, h5, set, hb, bind, Except.bind, this]

example : spectralUsed ⟨false, false⟩ f32 1 (bf16, bf16) false = .error .value ∧
    spectralUsed ⟨false, false⟩ bf16 1 (f32, f32) false = .ok (f32, f32) := by decide

/-! ## Constructors -/

theorem default_init_spec : ∀ (c : Config) (d : Option Dtype),
    defaultInit c (asked c d) = if (Requested c d).isInexact = true then .ok (Requested c d) else .error .value := by
  decide +kernel

theorem default_init_some : ∀ (c : Config) (d : Option Dtype),
    defaultInit c (asked c (some (asked c d))) = defaultInit c (asked c d) := by
  decide +kernel

theorem random_spec : ∀ (c : Config) (d : Option Dtype),
    random c true (asked c d) = if (Requested c d).isInexact = true then .ok (Requested c d) else .error .value := by
  decide +kernel

theorem filled_spec : ∀ (c : Config) (d : Option Dtype), filled c d = Requested c d ∧
    filled c (some (asked c d)) = Requested c d ∧ canon c (asked c d) = Requested c d := by
  decide +kernel

theorem requested_available : ∀ (c : Config) (d : Option Dtype), Available c (Requested c d) := by decide +kernel

theorem random_requested : ∀ (c : Config) (d : Option Dtype), (Requested c d).isInexact = true →
    random c true (Requested c d) = .ok (Requested c d) := by decide +kernel

/-- The affine map made of one dtype. -/
def uniform (d : Dtype) (bias : Bool) : Affine := ⟨d, if bias then some d else none⟩

theorem newAffine_spec (c : Config) (d : Option Dtype) (bias : Bool) :
    newAffine c d bias = if (Requested c d).isInexact = true then .ok (uniform (Requested c d) bias) else .error .value := by
  have h := default_init_spec c d
  by_cases hi : (Requested c d).isInexact = true
  · rw [if_pos hi] at h ⊢
    cases bias <;> simp [newAffine, h, optInit, uniform, bind, Except.bind, pure, Except.pure]
  · rw [if_neg hi] at h ⊢
    simp [newAffine, h, bind, Except.bind]

theorem newAffine_asked (c : Config) (d : Option Dtype) (bias : Bool) :
    newAffine c (some (asked c d)) bias = newAffine c d bias := by
  have h := default_init_some c d
  cases bias <;> simp only [newAffine, optInit, h]

theorem newHidden_spec (c : Config) (d : Option Dtype) (bias : Bool) (hi : (Requested c d).isInexact = true) (n : Nat) :
    newHidden c (asked c d) bias n = .ok (List.replicate n (uniform (Requested c d) bias)) := by
  induction n with
  | zero => rfl
  | succ n ih =>
    simp [newHidden, newAffine_asked, (newAffine_spec c d bias).trans (if_pos hi), ih, bind, Except.bind, pure, Except.pure, List.replicate_succ]

/-- What a layer built with one dtype looks like. -/
def built (d : Dtype) : Ask → Layer
  | .linear b => .linear (uniform d b)
  | .mlp 0 _ f => .mlp [uniform d f]
  | .mlp (n + 1) b f => .mlp (uniform d b :: (List.replicate n (uniform d b) ++ [uniform d f]))
  | .conv b => .conv (uniform d b)
  | .layerNorm w b => .layerNorm (if w then some d else none) (if b then some d else none)
  | .groupNorm a => .groupNorm (if a then some (d, d) else none)
  | .rmsNorm w b => .rmsNorm (if w then some d else none) (if b then some d else none)
  | .batchNorm a i => .batchNorm ⟨if a then some (d, d) else none, d, d⟩ i
  | .attention bq bk bv bo m dr => .attention ⟨uniform d bq, uniform d bk, uniform d bv, uniform d bo⟩ m dr
  | .spectral b n i => .spectral (uniform d b) n (d, d) i
  | .weightNorm b => .weightNorm (uniform d b) d.real
  | .rope => .rope d
  | .dropout a => .dropout a
  | .prelu => .prelu none

theorem build_inexact (c : Config) (d : Option Dtype) (a : Ask) (hi : (Requested c d).isInexact = true) :
    build c d a = .ok (built (Requested c d) a) := by
  obtain ⟨f1, f2, f3⟩ := filled_spec c d
  have na := fun bias => (newAffine_spec c d bias).trans (if_pos hi)
  cases a with
  | linear b => simp [build, built, na, Except.map]
  | mlp n b f =>
    cases n with
    | zero => simp [build, built, newMLP, newShallow, newAffine_asked, na, Except.map, bind, Except.bind, pure, Except.pure]
    | succ n =>
      simp [build, built, newMLP, newDeep, newAffine_asked, na, newHidden_spec c d b hi, Except.map, bind, Except.bind,
        pure, Except.pure]
  | conv b => simp [build, built, na, Except.map]
  | layerNorm w b => simp [build, built, newLayerNorm, f1]
  | groupNorm a => simp [build, built, newGroupNorm, f1]
  | rmsNorm w b => simp [build, built, newRMSNorm, f2]
  | batchNorm a i => simp [build, built, newBatchNorm, f2]
  | attention bq bk bv bo m dr =>
    simp [build, built, newHeads, newAffine_asked, na, Except.map, bind, Except.bind, pure, Except.pure]
  | spectral b n i =>
    simp [build, built, newSpectralLinear, newSpectral, na, uniform, random_requested c d hi,
      power_steps_const c hi (op_same c _), bind, Except.bind, pure, Except.pure]
  | weightNorm b => simp [build, built, newWeightNormLinear, na, uniform, bind, Except.bind, pure, Except.pure]
  | rope => simp [build, built, f3]
  | dropout a => rfl
  | prelu => rfl

/-- **Every array a layer holds has the dtype asked for** (floats of the default precision if none
was), parameters and state alike. -/
theorem build_dtype (c : Config) (d : Option Dtype) (a : Ask) (hi : (Requested c d).isInexact = true) :
    ∃ l, build c d a = .ok l ∧ (∀ e ∈ l.arrays, e = Requested c d) ∧
      ∀ L g, l = .weightNorm L g → bits g = bits (Requested c d) ∧ g ∉ [c64, c128] := by
  refine ⟨_, build_inexact c d a hi, ?arr, ?scale⟩
  case scale =>
    intro L g h
    have key : ∀ e : Dtype, bits e.real = bits e ∧ e.real ∉ [c64, c128] := by decide
    cases a <;> first | (simp only [built, Layer.weightNorm.injEq] at h; rw [← h.2]; exact key _) | skip
    all_goals first | (rename_i n _ _; cases n <;> simp [built] at h) | simp [built] at h
  have ha : ∀ (b : Bool) (e : Dtype), e ∈ (uniform (Requested c d) b).arrays → e = Requested c d := by
    intro b e; cases b <;> simp [uniform, Affine.arrays]
  intro e he
  cases a with
  | linear b => exact ha b e he
  | mlp n b f =>
    cases n with
    | zero => simp only [built, Layer.arrays, List.flatMap_cons, List.flatMap_nil, List.append_nil] at he; exact ha f e he
    | succ n =>
      simp only [built, Layer.arrays, List.mem_flatMap, List.mem_cons, List.mem_append, List.mem_replicate,
        List.not_mem_nil, or_false] at he
      obtain ⟨L, hL, he⟩ := he
      rcases hL with h | h | h
      · subst h; exact ha _ e he
      · obtain ⟨_, h⟩ := h; subst h; exact ha _ e he
      · subst h; exact ha _ e he
  | conv b => exact ha b e he
  | layerNorm w b => cases w <;> cases b <;> simp [built, Layer.arrays] at he <;> exact he
  | groupNorm a => cases a <;> simp [built, Layer.arrays] at he; exact he
  | rmsNorm w b => cases w <;> cases b <;> simp [built, Layer.arrays] at he <;> exact he
  | batchNorm a i => cases a <;> simp [built, Layer.arrays] at he <;> exact he
  | attention bq bk bv bo m dr =>
    simp only [built, Layer.arrays, List.mem_append] at he
    rcases he with ((h | h) | h) | h <;> exact ha _ e h
  | spectral b n i =>
    simp only [built, Layer.arrays, List.mem_append, List.mem_cons, List.not_mem_nil, or_false] at he
    rcases he with h | h | h
    · exact ha _ e h
    · exact h
    · exact h
  | weightNorm b => exact ha b e he
  | rope => simpa [built, Layer.arrays] using he
  | dropout a => simp [built, Layer.arrays] at he
  | prelu => simp [built, Layer.arrays] at he

/-- **Layers with random parameters refuse dtypes which are neither floating nor complex.** -/
theorem build_refuses (c : Config) (d : Option Dtype) (a : Ask) (hr : a.Random) (hi : (Requested c d).isInexact = false) :
    build c d a = .error .value := by
  have na := fun bias => (newAffine_spec c d bias).trans (if_neg (by simp [hi]))
  cases a with
  | linear b => simp [build, na, Except.map]
  | mlp n b f =>
    cases n <;> simp [build, newMLP, newShallow, newDeep, newAffine_asked, na, Except.map, bind, Except.bind]
  | conv b => simp [build, na, Except.map]
  | attention bq bk bv bo m dr => simp [build, newHeads, newAffine_asked, na, Except.map, bind, Except.bind]
  | spectral b n i => simp [build, newSpectralLinear, na, bind, Except.bind]
  | weightNorm b => simp [build, newWeightNormLinear, na, bind, Except.bind]
  | layerNorm w b => exact hr.elim
  | groupNorm a => exact hr.elim
  | rmsNorm w b => exact hr.elim
  | batchNorm a i => exact hr.elim
  | rope => exact hr.elim
  | dropout a => exact hr.elim
  | prelu => exact hr.elim

/-- **Recurrent cells and embeddings** likewise: their arrays have the dtype asked for, or the
construction is refused. -/
theorem cells_built (c : Config) (d : Option Dtype) (bias : Bool) :
    (newGRU c d bias = if (Requested c d).isInexact = true then
      .ok (Requested c d, Requested c d, if bias then some (Requested c d) else none, if bias then some (Requested c d) else none)
      else .error .value) ∧
    (newLSTM c d bias = if (Requested c d).isInexact = true then
      .ok (Requested c d, Requested c d, if bias then some (Requested c d) else none) else .error .value) ∧
    (newEmbedding c d = if (Requested c d).isInexact = true then .ok (Requested c d) else .error .value) := by
  have h := default_init_spec c d
  refine ⟨?_, ?_, random_spec c d⟩
  · by_cases hi : (Requested c d).isInexact = true
    · rw [if_pos hi] at h ⊢
      cases bias <;> simp [newGRU, h, optInit, bind, Except.bind, pure, Except.pure]
    · rw [if_neg hi] at h ⊢
      simp [newGRU, h, bind, Except.bind]
  · by_cases hi : (Requested c d).isInexact = true
    · rw [if_pos hi] at h ⊢
      cases bias <;> simp [newLSTM, h, optInit, bind, Except.bind, pure, Except.pure]
    · rw [if_neg hi] at h ⊢
      simp [newLSTM, h, bind, Except.bind]

/-- **Recurrent cells of one dtype keep it**, so that they can be the body of a scan; with an input
of another dtype the state is promoted, and under strict promotion refused. -/
theorem cells_dtype (c : Config) (d : Dtype) (bias : Bool) (x : Dtype) (hd : Available c d) (hx : Available c x)
    (hi : d.isInexact = true) :
    (if c.strict = true ∧ x ≠ d then gru c d d (if bias then some (d, d) else none) x d = .error .promotion
      else ∃ e, gru c d d (if bias then some (d, d) else none) x d = .ok e ∧ Lub d x e) ∧
    (if c.strict = true ∧ x ≠ d then lstm c d d (if bias then some d else none) x d d = .error .promotion
      else ∃ e, lstm c d d (if bias then some d else none) x d d = .ok (e, e) ∧ Lub d x e) := by
  revert c d bias x
  decide +kernel

/-! ## Layers in sequence -/

theorem linear_uniform (c : Config) (d : Dtype) (b : Bool) : linear c (uniform d b) d = .ok d := by
  cases b <;> simp [linear, uniform, opt, bind, Except.bind]

theorem mlp_uniform (c : Config) (d : Dtype) : ∀ Ls : List Affine, (∀ L ∈ Ls, ∃ b, L = uniform d b) → mlp c Ls d = .ok d
  | [], _ => rfl
  | L :: Ls, h => by
    obtain ⟨b, hb⟩ := h L (by simp)
    subst hb
    simp [mlp, linear_uniform, bind, Except.bind, mlp_uniform c d Ls fun L hL => h L (by simp [hL])]

theorem weights_uniform : ∀ (c : Config) (mask : Bool) (d : Dtype), Available c d → d.isInexact = true →
    (c.strict = true → d.isFloat = true) → ∃ s, attentionWeights c mask d d = .ok ⟨[s], d⟩ := by
  decide +kernel

theorem weightNorm_uniform : ∀ (c : Config) (b : Bool) (d : Dtype), Available c d → d.isInexact = true →
    (c.strict = true → d.isFloat = true) → weightNorm c (uniform d b) d.real d = .ok d := by
  decide +kernel

theorem float_not_complex : ∀ d : Dtype, d.isFloat = true → d ∉ [c64, c128] := by decide

theorem call_built (c : Config) (d : Dtype) (a : Ask) (hd : Available c d) (hi : d.isInexact = true)
    (hs : c.strict = true → d.isFloat = true) : (built d a).call c d = .ok (d, built d a) := by
  have hn : ¬ (c.strict = true ∧ d ∈ [c64, c128]) := fun h => float_not_complex d (hs h.1) h.2
  cases a with
  | linear b => simp [built, Layer.call, linear_uniform, Except.map]
  | mlp n b f =>
    cases n with
    | zero =>
      have := mlp_uniform c d [uniform d f] fun L hL => ⟨f, by simpa using hL⟩
      simp [built, Layer.call, this, Except.map]
    | succ n =>
      have := mlp_uniform c d (uniform d b :: (List.replicate n (uniform d b) ++ [uniform d f])) (by
        intro L hL
        simp only [List.mem_cons, List.mem_append, List.mem_replicate, List.not_mem_nil, or_false] at hL
        rcases hL with h | h | h
        · exact ⟨b, h⟩
        · exact ⟨b, h.2⟩
        · exact ⟨f, h⟩)
      simp [built, Layer.call, this, Except.map]
  | conv b => cases b <;> simp [built, Layer.call, conv, same, uniform, opt, Except.map, bind, Except.bind]
  | layerNorm w b =>
    have h := layer_norm_dtype c (if w then some d else none) (if b then some d else none) d hd
    rw [if_neg hn] at h
    obtain ⟨r, h1, h2, _⟩ := h
    simp [built, Layer.call, h1, h2, Except.map]
  | groupNorm a =>
    have h := group_norm_dtype c (if a then some (d, d) else none) d hd
    rw [if_neg hn] at h
    obtain ⟨r, h1, h2, _⟩ := h
    simp [built, Layer.call, h1, h2, Except.map]
  | rmsNorm w b =>
    obtain ⟨r, h1, h2, _⟩ := rms_norm_dtype c (if w then some d else none) (if b then some d else none) d hd
    simp [built, Layer.call, h1, h2, Except.map]
  | batchNorm a i =>
    have h : batchNorm c ⟨if a then some (d, d) else none, d, d⟩ i d =
        .ok (d, ⟨if a then some (d, d) else none, d, d⟩) := by
      cases i <;> cases a <;> simp [batchNorm, batchUsed, batchStats, batchNormalise, same, set, opt, mean_inexact c hi,
        scalar_inexact c hi, bind, Except.bind, pure, Except.pure]
    simp [built, Layer.call, h, Except.map]
  | attention bq bk bv bo m dr =>
    obtain ⟨s, h⟩ := weights_uniform c m d hd hi hs
    cases dr <;> simp [built, Layer.call, attention, linear_uniform, attentionHead, h, dropout, scalar_inexact c hi,
      Except.map, bind, Except.bind]
  | spectral b n i =>
    have h := power_steps_const c hi (op_same c d) n
    have h' : spectralUsed c d n (d, d) i = .ok (d, d) := by
      cases i <;> simp [spectralUsed, h, set, bind, Except.bind]
    cases b <;> simp [built, Layer.call, spectralNorm, uniform, h', linear, opt, Except.map, bind, Except.bind, pure,
      Except.pure]
  | weightNorm b => simp [built, Layer.call, weightNorm_uniform c b d hd hi hs, Except.map]
  | rope => simp [built, Layer.call, rope, cast, Except.map, bind, Except.bind, pure, Except.pure]
  | dropout a => cases a <;> simp [built, Layer.call, dropout, scalar_inexact c hi, Except.map]
  | prelu => simp [built, Layer.call, prelu, scalar_inexact c.standard hi, Except.map, bind, Except.bind]

theorem builds_inexact (c : Config) (d : Option Dtype) (hi : (Requested c d).isInexact = true) :
    ∀ as : List Ask, builds c d as = .ok (as.map (built (Requested c d)))
  | [] => rfl
  | a :: as => by
    simp [builds, build_inexact c d a hi, builds_inexact c d hi as, bind, Except.bind, pure, Except.pure]

theorem run_built (c : Config) (d : Dtype) (hd : Available c d) (hi : d.isInexact = true)
    (hs : c.strict = true → d.isFloat = true) : ∀ as : List Ask, run c (as.map (built d)) d = .ok (d, as.map (built d))
  | [] => rfl
  | a :: as => by
    simp [run, call_built c d a hd hi hs, run_built c d hd hi hs as, bind, Except.bind, pure, Except.pure]

/-- **One dtype throughout.** Layers built with one floating point dtype (or the default), one after
the other, take inputs of that dtype to outputs of that dtype, in training and in inference, without
a promotion (so under strict promotion too), and leave the dtypes of their state as they are; hence so
do all later calls. Complex dtypes need standard promotion. -/
theorem one_dtype (c : Config) (d : Option Dtype) (as : List Ask) (hi : (Requested c d).isInexact = true)
    (hs : c.strict = true → (Requested c d).isFloat = true) :
    ∃ ls, builds c d as = .ok ls ∧ ls.length = as.length ∧ run c ls (Requested c d) = .ok (Requested c d, ls) := by
  refine ⟨_, builds_inexact c d hi as, by simp, ?_⟩
  exact run_built c _ (requested_available c d) hi hs as

/-- The hypotheses can be met: a half precision stack under strict promotion. -/
example : ∃ ls, builds ⟨false, true⟩ (some bf16) [.conv true, .batchNorm true false, .prelu, .layerNorm true true,
    .attention true true true true true true, .mlp 3 true false] = .ok ls ∧ ls.length = 6 ∧
    run ⟨false, true⟩ ls bf16 = .ok (bf16, ls) :=
  one_dtype ⟨false, true⟩ (some bf16) _ rfl (fun _ => rfl)

end Verif.NN.Dtypes
