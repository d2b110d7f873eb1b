/-
C56: configurations.
-/
import Verif.Config
import Mathlib.Data.Rat.Defs
import Mathlib.Tactic.NormNum
import Mathlib.Data.Rat.Cast.Defs

namespace Lbm
namespace Config

variable {K : Type} [Field K] [DecidableEq K]

/-- parameter combinations that the documentation of `LBMConfig` excludes -/
def Spec.Invalid (p : Params K) : Prop :=
  (p.compressible = false ∧ p.method.isCumulant = true) ∨
  (p.zeroCentered = true ∧ p.entropic = true) ∨
  (p.delta = some true ∧ (p.zeroCentered = false ∨ p.method.isCumulant = true)) ∨
  ∃ s, p.space = some s ∧ (((p.entropic = true ∨ p.fluctuating = true) ∧ s ≠ .populations) ∨ s.compatible p.method = false)

/-- a string that names no force model -/
def Spec.UnknownForceModel (p : Params K) : Prop := ∃ s, p.forceModel = .str s ∧ forceNames.lookup s = none

/-- the relaxation rates of a configuration: the single rate has precedence; two-rate methods get the second one from the magic number -/
def Spec.rates (omega : K) (magic : K → K) (p : Params K) : List K :=
  match p.rate, p.rates with
  | none, some r => r
  | some ω, _ => if p.method = .trt ∨ p.method.isKbc then [ω, magic ω] else [ω]
  | none, none => if p.method = .trt ∨ p.method.isKbc then [omega, magic omega] else [omega]

/-- the single rate afterwards -/
def Spec.rate (omega : K) (p : Params K) : Option K :=
  match p.rate, p.rates with
  | none, none => some omega
  | r, _ => r

def Spec.delta (p : Params K) : Bool :=
  p.delta.getD (p.zeroCentered && !(decide (p.method = .centralMoment) || p.method.isCumulant))

def Spec.space (p : Params K) : Space :=
  p.space.getD (if p.entropic ∨ p.fluctuating then .populations else
    match p.method with
    | .mrt | .mrtRaw => .rawMoments
    | .centralMoment => .centralMoments
    | .cumulant | .monomialCumulant => .cumulants
    | _ => .populations)

/-- the force after the scaling for partially saturated cells -/
def Spec.scaled (p : Params K) : List K := p.force.map fun f => (p.fraction.elim 1 fun b => 1 - b) * f

/-- the force model afterwards. A default model has the force without the scaling. -/
def Spec.forceModel (p : Params K) : ForceArg K :=
  match p.forceModel with
  | .none => if ∀ f ∈ p.force, f = 0 then .none else
      .object (if p.method = .cumulant then .centralMoment else .guo) (p.force.take p.D)
  | .member n => .object n.kind ((Spec.scaled p).take p.D)
  | .str s => match forceNames.lookup s with
    | some n => .object n.kind ((Spec.scaled p).take p.D)
    | none => .str s
  | .object k F => .object k F

/-- all parameters afterwards -/
def Spec.result (omega : K) (magic : K → K) (p : Params K) : Params K :=
  { p with
    rates := some (Spec.rates omega magic p)
    rate := Spec.rate omega p
    delta := some (Spec.delta p)
    space := some (Spec.space p)
    force := Spec.scaled p
    forceModel := Spec.forceModel p
    conservedMoments := p.conservedMoments && !(p.densityInput || p.velocityInput)
    kernelType := if p.kernelType.legacy.isSome then .defaultStreamCollide else p.kernelType
    pattern := (p.kernelType.legacy.map Prod.fst).getD p.pattern
    timestep := (p.kernelType.legacy.map Prod.snd).getD p.timestep }

theorem setRates_eq (omega : K) (magic : K → K) (p : Params K) :
    setRates omega magic p = { p with rates := some (Spec.rates omega magic p), rate := Spec.rate omega p } := by
  unfold setRates Spec.rates Spec.rate
  rcases hr : p.rates with _ | r <;> rcases hs : p.rate with _ | ω <;> simp only [hr, hs]
  · split <;> rfl
  · split <;> simp_all
  · rcases p; simp_all
  · split <;> simp_all

theorem setDelta_eq (p : Params K) : setDelta p =
    if (p.compressible = false ∧ p.method.isCumulant = true) ∨ (p.zeroCentered = true ∧ p.entropic = true) ∨
      (p.delta = some true ∧ (p.zeroCentered = false ∨ p.method.isCumulant = true)) then .error .valueError
    else .ok { p with delta := some (Spec.delta p) } := by
  unfold setDelta Spec.delta
  rcases p with ⟨D, Q, m, r, r1, c, z, d, fm, F, s, e, fl, b, vi, di, cm, kt, pa, ts⟩
  rcases d with _ | _ | _ <;> rcases c with _ | _ <;> rcases z with _ | _ <;> rcases e with _ | _ <;> rcases hm : m.isCumulant with _ | _ <;>
    simp [hm]
  all_goals (cases m <;> simp_all [Method.isCumulant])

theorem setSpace_eq (p : Params K) : setSpace p =
    if ∃ s, p.space = some s ∧ (((p.entropic = true ∨ p.fluctuating = true) ∧ s ≠ .populations) ∨ s.compatible p.method = false) then
      .error .valueError
    else .ok { p with space := some (Spec.space p) } := by
  unfold setSpace Spec.space
  rcases p with ⟨D, Q, m, r, r1, c, z, d, fm, F, s, e, fl, b, vi, di, cm, kt, pa, ts⟩
  rcases s with _ | s
  · cases m <;> rcases e with _ | _ <;> rcases fl with _ | _ <;> simp [Method.isKbc, Method.isCumulant]
  · rcases e with _ | _ <;> rcases fl with _ | _ <;> rcases hc : s.compatible m with _ | _ <;> by_cases hs : s = .populations <;> simp [hs, hc]
    all_goals (subst hs; simp_all)

theorem setKernel_eq (p : Params K) : setKernel p = { p with
    kernelType := if p.kernelType.legacy.isSome then .defaultStreamCollide else p.kernelType
    pattern := (p.kernelType.legacy.map Prod.fst).getD p.pattern
    timestep := (p.kernelType.legacy.map Prod.snd).getD p.timestep } := by
  unfold setKernel
  rcases p with ⟨D, Q, m, r, r1, c, z, d, fm, F, s, e, fl, b, vi, di, cm, kt, pa, ts⟩
  cases kt <;> rfl

theorem scaleForce_eq (p : Params K) : scaleForce p = { p with force := Spec.scaled p } := by
  unfold scaleForce Spec.scaled
  rcases p with ⟨D, Q, m, r, r1, c, z, d, fm, F, s, e, fl, b, vi, di, cm, kt, pa, ts⟩
  rcases b with _ | b <;> simp

theorem any_ne_zero (l : List K) : l.any (· ≠ 0) = true ↔ ¬ ∀ f ∈ l, f = 0 := by simp

theorem force_eq (p : Params K) (h : ¬ Spec.UnknownForceModel p) : createForceModel (scaleForce (defaultForceModel p)) =
    .ok { p with force := Spec.scaled p, forceModel := Spec.forceModel p } := by
  rcases p with ⟨D, Q, m, r, r1, c, z, d, fm, F, s, e, fl, b, vi, di, cm, kt, pa, ts⟩
  rw [scaleForce_eq]
  unfold defaultForceModel Spec.forceModel
  rcases fm with _ | n | u | ⟨k, G⟩
  · by_cases h0 : ∀ f ∈ F, f = 0
    · rw [if_neg (by rw [any_ne_zero]; tauto), if_pos h0]
      rfl
    · rw [if_pos ⟨rfl, (any_ne_zero F).2 h0⟩, if_neg h0]
      rfl
  · rfl
  · rcases hl : forceNames.lookup u with _ | n
    · exact absurd ⟨u, rfl, hl⟩ h
    · simp [createForceModel, hl, Spec.scaled]
  · rfl

theorem force_unknown (p : Params K) (h : Spec.UnknownForceModel p) : createForceModel (scaleForce (defaultForceModel p)) =
    .error .keyError := by
  obtain ⟨u, hu, hl⟩ := h
  rcases p with ⟨D, Q, m, r, r1, c, z, d, fm, F, s, e, fl, b, vi, di, cm, kt, pa, ts⟩
  simp only at hu
  subst hu
  rw [scaleForce_eq]
  simp [createForceModel, defaultForceModel, hl]

open Classical in
/-- C56: the constructor raises `ValueError` exactly for excluded combinations, `KeyError` exactly for unknown names of force models, and
otherwise all parameters are as specified; in particular the branch "No default collision space" is never reached. -/
theorem C56_make (omega : K) (magic : K → K) (p : Params K) : make omega magic p =
    if Spec.Invalid p then .error .valueError else if Spec.UnknownForceModel p then .error .keyError
    else .ok (Spec.result omega magic p) := by
  have hI : Spec.Invalid p ↔ ((p.compressible = false ∧ p.method.isCumulant = true) ∨ (p.zeroCentered = true ∧ p.entropic = true) ∨
      (p.delta = some true ∧ (p.zeroCentered = false ∨ p.method.isCumulant = true))) ∨
      ∃ s, p.space = some s ∧ (((p.entropic = true ∨ p.fluctuating = true) ∧ s ≠ .populations) ∨ s.compatible p.method = false) := by
    unfold Spec.Invalid
    rw [or_assoc, or_assoc]
  unfold make
  rw [setRates_eq]
  by_cases h1 : (p.compressible = false ∧ p.method.isCumulant = true) ∨ (p.zeroCentered = true ∧ p.entropic = true) ∨
      (p.delta = some true ∧ (p.zeroCentered = false ∨ p.method.isCumulant = true))
  · have hd : setDelta { p with rates := some (Spec.rates omega magic p), rate := Spec.rate omega p } = .error .valueError := (setDelta_eq _).trans (if_pos h1)
    rw [hd, if_pos (hI.2 (Or.inl h1))]
  have hd : setDelta { p with rates := some (Spec.rates omega magic p), rate := Spec.rate omega p } =
      .ok { p with rates := some (Spec.rates omega magic p), rate := Spec.rate omega p, delta := some (Spec.delta p) } := (setDelta_eq _).trans (if_neg h1)
  rw [hd]
  simp only
  by_cases h2 : ∃ s, p.space = some s ∧ (((p.entropic = true ∨ p.fluctuating = true) ∧ s ≠ .populations) ∨ s.compatible p.method = false)
  · have hs : setSpace { p with rates := some (Spec.rates omega magic p), rate := Spec.rate omega p, delta := some (Spec.delta p) } =
      .error .valueError := (setSpace_eq _).trans (if_pos h2)
    rw [hs, if_pos (hI.2 (Or.inr h2))]
  have h12 : ¬ Spec.Invalid p := fun h => (hI.1 h).elim h1 h2
  have hs : setSpace { p with rates := some (Spec.rates omega magic p), rate := Spec.rate omega p, delta := some (Spec.delta p) } =
      .ok { p with rates := some (Spec.rates omega magic p), rate := Spec.rate omega p, delta := some (Spec.delta p), space := some (Spec.space p) } :=
    (setSpace_eq _).trans (if_neg h2)
  rw [hs, if_neg h12]
  simp only
  rw [setKernel_eq]
  by_cases h3 : Spec.UnknownForceModel p
  · rw [if_pos h3, force_unknown]
    exact h3
  · rw [if_neg h3, force_eq]
    · simp only [setConserved, Spec.result]
      rcases p with ⟨D, Q, m, r, r1, c, z, d, fm, F, s, e, fl, b, vi, di, cm, kt, pa, ts⟩
      rcases vi with _ | _ <;> rcases di with _ | _ <;> rcases cm with _ | _ <;> rfl
    · exact h3

theorem make_ok {omega : K} {magic : K → K} {p c : Params K} (h : make omega magic p = .ok c) :
    ¬ Spec.Invalid p ∧ ¬ Spec.UnknownForceModel p ∧ c = Spec.result omega magic p := by
  classical
  rw [C56_make] at h
  split at h
  · cases h
  split at h
  · cases h
  · cases h; exact ⟨‹_›, ‹_›, rfl⟩

example : make (K := ℚ) 1 id { force := [0, 0, 0] } = .ok { force := [0, 0, 0], rates := some [1], rate := some 1,
                                                             delta := some true, space := some .populations } := by decide

example : make (K := ℚ) 1 id { force := [1, 0, 0], method := .cumulant } = .error .valueError := by decide

/-! ### Consequences -/

/-- C56: what holds of every configuration. -/
theorem C56_configuration {omega : K} {magic : K → K} {p c : Params K} (h : make omega magic p = .ok c) :
    (c.D = p.D ∧ c.Q = p.Q ∧ c.method = p.method ∧ c.zeroCentered = p.zeroCentered ∧ c.compressible = p.compressible) ∧
    (∃ d, c.delta = some d ∧ (d = true → c.zeroCentered = true ∧ c.method.isCumulant = false)) ∧
    (c.entropic = true → c.zeroCentered = false) ∧ (c.method.isCumulant = true → c.compressible = true) ∧
    (∃ s, c.space = some s ∧ (c.entropic = true ∨ c.fluctuating = true → s = .populations)) ∧
    (c.densityInput = true ∨ c.velocityInput = true → c.conservedMoments = false) ∧ c.kernelType.legacy = none ∧
    (c.forceModel = .none ∧ (∀ f ∈ p.force, f = 0) ∨ ∃ k F, c.forceModel = .object k F) := by
  obtain ⟨h1, h2, rfl⟩ := make_ok h
  unfold Spec.Invalid at h1
  refine ⟨⟨rfl, rfl, rfl, rfl, rfl⟩, ⟨_, rfl, fun hd => ?_⟩, fun he => ?_, fun hc => ?_, ⟨_, rfl, fun he => ?_⟩, fun hi => ?_, ?_, ?_⟩
  · simp only [Spec.result]
    unfold Spec.delta at hd
    rcases hp : p.delta with _ | d
    · rw [hp] at hd
      simp at hd
      exact ⟨hd.1, hd.2.2⟩
    · rw [hp] at hd
      simp only [Option.getD_some] at hd
      subst hd
      rcases hz : p.zeroCentered with _ | _
      · exact absurd (Or.inr (Or.inr (Or.inl ⟨hp, Or.inl hz⟩))) h1
      rcases hm : p.method.isCumulant with _ | _
      · exact ⟨rfl, rfl⟩
      · exact absurd (Or.inr (Or.inr (Or.inl ⟨hp, Or.inr hm⟩))) h1
  · simp only [Spec.result] at he ⊢
    rcases hz : p.zeroCentered with _ | _
    · rfl
    · exact absurd (Or.inr (Or.inl ⟨hz, he⟩)) h1
  · simp only [Spec.result] at hc ⊢
    rcases hz : p.compressible with _ | _
    · exact absurd (Or.inl ⟨hz, hc⟩) h1
    · rfl
  · simp only [Spec.result] at he
    unfold Spec.space
    rcases hs : p.space with _ | s
    · simp only [Option.getD_none, if_pos he]
    · simp only [Option.getD_some]
      by_contra hn
      exact h1 (Or.inr (Or.inr (Or.inr ⟨s, hs, Or.inl ⟨he, hn⟩⟩)))
  · simp only [Spec.result] at hi ⊢
    rcases hi with hi | hi <;> rw [hi] <;> simp
  · simp only [Spec.result]
    rcases p.kernelType <;> rfl
  · simp only [Spec.result]
    unfold Spec.forceModel
    rcases hf : p.forceModel with _ | n | u | ⟨k, F⟩
    · by_cases h0 : ∀ f ∈ p.force, f = 0
      · left; exact ⟨if_pos h0, h0⟩
      · right; exact ⟨_, _, if_neg h0⟩
    · right; exact ⟨_, _, rfl⟩
    · rcases hl : forceNames.lookup u with _ | n
      · exact absurd ⟨u, hf, hl⟩ h2
      · right
        refine ⟨n.kind, (Spec.scaled p).take p.D, ?_⟩
        simp only [hl]
    · right; exact ⟨_, _, rfl⟩

theorem rates_result (omega : K) (magic : K → K) (p : Params K) :
    Spec.rates omega magic (Spec.result omega magic p) = Spec.rates omega magic p ∧
      Spec.rate omega (Spec.result omega magic p) = Spec.rate omega p := by
  unfold Spec.rates Spec.rate Spec.result
  rcases p with ⟨D, Q, m, r, r1, c, z, d, fm, F, s, e, fl, b, vi, di, cm, kt, pa, ts⟩
  rcases r with _ | r <;> rcases r1 with _ | r1 <;> simp [Spec.rates, Spec.rate]

/-- C56: constructing a configuration again from all its parameters, as every creation function does (`dataclasses.replace`), changes nothing
exactly if the scaling of the force for partially saturated cells does not and if the collision space is compatible with the method. -/
theorem C56_idempotent_iff {omega : K} {magic : K → K} {p c : Params K} (h : make omega magic p = .ok c) :
    make omega magic c = .ok c ↔ Spec.scaled c = c.force ∧ (Spec.space c).compatible c.method = true := by
  classical
  obtain ⟨-, ⟨d, hd, hd'⟩, he, hc, ⟨s, hs, hs'⟩, hi, hk, hf⟩ := C56_configuration h
  obtain ⟨h1, h2, hcp⟩ := make_ok h
  have hsp : Spec.space c = s := by unfold Spec.space; rw [hs]; rfl
  have hunk : ¬ Spec.UnknownForceModel c := by
    rintro ⟨u, hu, -⟩
    rcases hf with ⟨hf, -⟩ | ⟨k, F, hf⟩ <;> rw [hf] at hu <;> cases hu
  have hinv : Spec.Invalid c ↔ s.compatible c.method = false := by
    unfold Spec.Invalid
    constructor
    · rintro (⟨a, b⟩ | ⟨a, b⟩ | ⟨a, b⟩ | ⟨s', a, b⟩)
      · rw [hc b] at a; cases a
      · rw [he b] at a; cases a
      · rw [hd] at a
        obtain ⟨e1, e2⟩ := hd' (Option.some.inj a)
        rcases b with b | b
        · rw [e1] at b; cases b
        · rw [e2] at b; cases b
      · rw [hs] at a
        cases Option.some.inj a
        rcases b with ⟨b1, b2⟩ | b
        · exact absurd (hs' b1) b2
        · exact b
    · intro hn
      exact Or.inr (Or.inr (Or.inr ⟨s, hs, Or.inr hn⟩))
  rw [C56_make, if_neg hunk, hsp]
  by_cases hn : s.compatible c.method = false
  · rw [if_pos (hinv.2 hn), hn]
    simp
  · rw [if_neg fun h => hn (hinv.1 h)]
    have ht : s.compatible c.method = true := by simpa using hn
    simp only [Except.ok.injEq, ht, and_true]
    constructor
    · intro e
      have := congrArg Params.force e
      exact this
    · intro e
      have hr := rates_result omega magic p
      rw [← hcp] at hr
      have e1 : some (Spec.rates omega magic c) = c.rates := by rw [hr.1, hcp]; rfl
      have e2 : Spec.rate omega c = c.rate := by rw [hr.2, hcp]; rfl
      have e3 : some (Spec.delta c) = c.delta := by unfold Spec.delta; rw [hd]; rfl
      have e4 : some (Spec.space c) = c.space := by rw [hsp, hs]
      have e5 : Spec.forceModel c = c.forceModel := by
        unfold Spec.forceModel
        rcases hf with ⟨hf, h0⟩ | ⟨k, F, hf⟩
        · rw [hf]
          refine if_pos fun f hf => ?_
          rw [hcp] at hf
          simp only [Spec.result, Spec.scaled, List.mem_map] at hf
          obtain ⟨g, hg, rfl⟩ := hf
          rw [h0 g hg, mul_zero]
        · rw [hf]
      have e6 : (c.conservedMoments && !(c.densityInput || c.velocityInput)) = c.conservedMoments := by
        rcases hi1 : c.densityInput with _ | _ <;> rcases hi2 : c.velocityInput with _ | _ <;> simp
        all_goals exact hi (by simp [hi1, hi2])
      unfold Spec.result
      rw [e1, e2, e3, e4, e5, e, e6, hk]
      rfl

/-- C56: therefore without partially saturated cells and with a method other than central moments and cumulants, or without entropic and
fluctuating, it is idempotent. -/
theorem C56_idempotent {omega : K} {magic : K → K} {p c : Params K} (h : make omega magic p = .ok c) (hfr : p.fraction = none)
    (hm : (p.method ≠ .centralMoment ∧ p.method.isCumulant = false) ∨ (p.entropic = false ∧ p.fluctuating = false) ∨ p.space.isSome) :
    make omega magic c = .ok c := by
  rw [C56_idempotent_iff h]
  obtain ⟨h1, h2, rfl⟩ := make_ok h
  refine ⟨?_, ?_⟩
  · simp [Spec.scaled, Spec.result, hfr]
  · show ((some (Spec.space p)).getD _).compatible p.method = true
    simp only [Option.getD_some]
    unfold Spec.space
    rcases hs : p.space with _ | s
    · simp only [Option.getD_none]
      rcases p with ⟨D, Q, m, r, r1, c, z, d, fm, F, s, e, fl, b, vi, di, cm, kt, pa, ts⟩
      simp only at hm hs ⊢
      subst hs
      rcases hm with ⟨ha, hb⟩ | ⟨ha, hb⟩ | hm
      · cases m <;> rcases e with _ | _ <;> rcases fl with _ | _ <;> simp_all [Space.compatible, Method.isCumulant]
      · subst ha hb
        cases m <;> simp [Space.compatible]
      · cases hm
    · simp only [Option.getD_some]
      by_contra hn
      exact h1 (Or.inr (Or.inr (Or.inr ⟨s, hs, Or.inr (by simpa using hn)⟩)))

/-- C56: a fluctuating central moment method is accepted by the constructor and refused by every creation function. -/
theorem C56_accepted_then_refused : ∃ p c : Params ℚ, make 1 id p = .ok c ∧ make 1 id c = .error .valueError :=
  ⟨{ force := [0, 0, 0], method := .centralMoment, fluctuating := true }, _, rfl, by decide⟩

/-! ### Overriding parameters in the creation functions -/

/-- Full claim: passing changed parameters to a creation function has the effect of passing them to the constructor in the first place. -/
def UpdateIsFresh (K : Type) [Field K] [DecidableEq K] : Prop :=
  ∀ (omega : K) (magic : K → K) (p c : Params K) (change : Params K → Params K), make omega magic p = .ok c →
    update omega magic c change = make omega magic (change p)

/-- C56, partial: the claim holds if nothing is inferred by the constructor. Missing are configurations with inferred parameters, for
which it is false (`C56_force_change_ignored`, `C56_rates_change_ignored`, `C56_update_not_fresh`). -/
theorem C56_update_partial {omega : K} {magic : K → K} {p c : Params K} (change : Params K → Params K) (h : make omega magic p = .ok c)
    (hr : p.rate = none ∧ p.rates.isSome) (hd : p.delta.isSome) (hs : p.space.isSome)
    (hf : (∃ k F, p.forceModel = .object k F) ∨ p.forceModel = .none ∧ ∀ f ∈ p.force, f = 0) (hb : p.fraction = none)
    (hk : p.kernelType.legacy = none) (hi : p.densityInput = false ∧ p.velocityInput = false) :
    update omega magic c change = make omega magic (change p) := by
  obtain ⟨-, -, rfl⟩ := make_ok h
  suffices e : Spec.result omega magic p = p by rw [e]; rfl
  rcases p with ⟨D, Q, m, r, r1, c, z, d, fm, F, s, e, fl, b, vi, di, cm, kt, pa, ts⟩
  simp only at hr hd hs hf hb hk hi
  obtain ⟨rfl, hr⟩ := hr
  obtain ⟨r, rfl⟩ := Option.isSome_iff_exists.1 hr
  obtain ⟨d, rfl⟩ := Option.isSome_iff_exists.1 hd
  obtain ⟨s, rfl⟩ := Option.isSome_iff_exists.1 hs
  obtain ⟨rfl, rfl⟩ := hi
  subst hb
  have e1 : Spec.forceModel (K := K) ⟨D, Q, m, some r, none, c, z, some d, fm, F, some s, e, fl, none, false, false, cm, kt, pa, ts⟩ = fm := by
    unfold Spec.forceModel
    rcases hf with ⟨k, G, rfl⟩ | ⟨rfl, h0⟩
    · rfl
    · exact if_pos h0
  simp only [Spec.result, e1, hk]
  simp [Spec.rates, Spec.rate, Spec.delta, Spec.space, Spec.scaled]

/-- C56: once there is a force model, a changed force is ignored: the force model keeps the old one. -/
theorem C56_force_change_ignored {omega : K} {magic : K → K} {p c : Params K} (h : make omega magic p = .ok c) (hf : c.forceModel ≠ .none)
    (F : List K) {c' : Params K} (h' : update omega magic c (fun p => { p with force := F }) = .ok c') : c'.forceModel = c.forceModel := by
  obtain ⟨-, -, rfl⟩ := make_ok h'
  obtain ⟨-, -, -, -, -, -, -, hc⟩ := C56_configuration h
  rcases hc with ⟨hc, -⟩ | ⟨k, G, hc⟩
  · exact absurd hc hf
  · simp only [Spec.result, Spec.forceModel, hc]

/-- C56: if the configuration was made with a single rate or without rates, changed `relaxation_rates` are ignored. -/
theorem C56_rates_change_ignored {omega : K} {magic : K → K} {p c : Params K} (h : make omega magic p = .ok c)
    (hp : p.rate ≠ none ∨ p.rates = none) (r : List K) :
    update omega magic c (fun p => { p with rates := some r }) = update omega magic c id := by
  obtain ⟨-, -, rfl⟩ := make_ok h
  have hr : ∃ ω, (Spec.result omega magic p).rate = some ω := by
    show ∃ ω, Spec.rate omega p = some ω
    unfold Spec.rate
    rcases h1 : p.rate with _ | ω
    · rcases hp with hp | hp
      · exact absurd h1 hp
      · rw [hp]; exact ⟨_, rfl⟩
    · exact ⟨ω, rfl⟩
  obtain ⟨ω, hr⟩ := hr
  unfold update make
  have : setRates omega magic { Spec.result omega magic p with rates := some r } = setRates omega magic (id (Spec.result omega magic p)) := by
    unfold setRates
    have e : (id (Spec.result omega magic p)).rates = some (Spec.rates omega magic p) := rfl
    have e' : (id (Spec.result omega magic p)).rate = some ω := hr
    simp only [e, e', hr]
    rfl
  rw [this]

/-- C56: the full claim is false: a force of 2 instead of 1 is ignored; a cumulant method instead of the default method is refused. -/
theorem C56_update_not_fresh : ¬ UpdateIsFresh ℚ ∧
    ∃ p c : Params ℚ, make 1 id p = .ok c ∧ update 1 id c (fun p => { p with method := .cumulant }) = .error .valueError ∧
      ∃ c', make 1 id { p with method := .cumulant } = .ok c' := by
  refine ⟨fun h => ?_, ⟨{ force := [0, 0, 0], compressible := true }, _, rfl, by decide, _, rfl⟩⟩
  have := h 1 id { force := [1, 0, 0] } _ (fun p => { p with force := [2, 0, 0] }) rfl
  revert this
  decide

/-! ### Forces -/

/-- C56: the force of the force model. Models given by name or member get the force scaled by `1 - fraction` in partially saturated cells. -/
theorem C56_force_model {omega : K} {magic : K → K} {p c : Params K} (h : make omega magic p = .ok c) (n : ForceName)
    (hn : p.forceModel = .member n ∨ ∃ s, p.forceModel = .str s ∧ forceNames.lookup s = some n) :
    c.forceModel = .object n.kind ((p.force.map fun f => (p.fraction.elim 1 fun b => 1 - b) * f).take p.D) := by
  obtain ⟨-, -, rfl⟩ := make_ok h
  simp only [Spec.result, Spec.forceModel]
  rcases hn with hn | ⟨s, hn, hl⟩
  · rw [hn]; rfl
  · rw [hn]; simp only [hl]; rfl

/-- C56: which names are synonyms: `silva` of `buick`, `kupershtokh` of `edm`, no others; the model has the name of the member. -/
theorem C56_force_synonyms : (∀ n n' : ForceName, n.kind = n'.kind ↔ n = n' ∨ (n, n') ∈ [(ForceName.silva, ForceName.buick), (.buick, .silva),
      (.kupershtokh, .edm), (.edm, .kupershtokh)]) ∧
    [ForceName.simple, .luo, .guo, .buick, .edm, .he, .shanChen, .centralMoment].map ForceName.kind =
      [.simple, .luo, .guo, .buick, .edm, .he, .shanChen, .centralMoment] := by
  refine ⟨fun n n' => ?_, rfl⟩
  cases n <;> cases n' <;> decide

/-- C56: the default force model gets the force without that scaling, so that the force acts in full on solid cells. -/
theorem C56_default_force_model {omega : K} {magic : K → K} {p c : Params K} (h : make omega magic p = .ok c) (hn : p.forceModel = .none) :
    (∀ f ∈ p.force, f = 0) ∧ c.forceModel = .none ∨ (∃ f ∈ p.force, f ≠ 0) ∧
      c.forceModel = .object (if p.method = .cumulant then .centralMoment else .guo) (p.force.take p.D) := by
  obtain ⟨-, -, rfl⟩ := make_ok h
  simp only [Spec.result, Spec.forceModel, hn]
  by_cases h0 : ∀ f ∈ p.force, f = 0
  · left; exact ⟨h0, if_pos h0⟩
  · right
    refine ⟨by simpa using h0, if_neg h0⟩

/-- C56: example of the difference; `schiller`, a key of the table of force models, is not accepted. -/
theorem C56_psm_force_differs : (∃ c d : Params ℚ, make (K := ℚ) 1 id { force := [1, 0, 0], fraction := some (1 / 2 : ℚ) } = .ok c ∧
      make (K := ℚ) 1 id { force := [1, 0, 0], fraction := some (1 / 2), forceModel := .member .guo } = .ok d ∧
      c.forceModel = .object .guo [1, 0] ∧ d.forceModel = .object .guo [1 / 2, 0]) ∧
    make (K := ℚ) 1 id { force := [1, 0, 0], forceModel := .str "SCHILLER" } = .error .keyError := by
  refine ⟨⟨_, _, rfl, rfl, by decide, by decide +kernel⟩, by decide⟩

/-! ### Creation functions -/

/-- C56: after the constructor, creating the method fails only for KBC on other stencils or for too few rates in a given list. -/
theorem C56_create_method {omega : K} {magic : K → K} {p c : Params K} (h : make omega magic p = .ok c) :
    (∀ e, createMethod false c = .error e →
      (e = .notImplemented ∧ p.method.isKbc = true ∧ ¬ (p.D = 2 ∧ p.Q = 9 ∨ p.D = 3 ∧ p.Q = 27)) ∨
      (p.rate = none ∧ ∃ r, p.rates = some r ∧ (r = [] ∧ p.method = .srt ∧ e = .assertion ∨
        r.length < 2 ∧ (p.method = .trt ∧ e = .assertion ∨ p.method.isKbc = true ∧ e = .indexError)))) ∧
    (createMethod true c = .ok .cumulantFourthOrder ↔
      p.method = .cumulant ∧ (p.D = 3 ∨ p.Q = 27) ∧ (Spec.rates omega magic p).length ≤ 2) := by
  obtain ⟨-, -, rfl⟩ := make_ok h
  have hrates : ((p.rate = none ∧ p.rates = some (Spec.rates omega magic p)) ∨ ∃ ω, Spec.rates omega magic p =
      if p.method = .trt ∨ p.method.isKbc = true then [ω, magic ω] else [ω]) := by
    unfold Spec.rates
    rcases p.rate with _ | ω
    · rcases p.rates with _ | r
      · right; exact ⟨omega, rfl⟩
      · left; exact ⟨rfl, rfl⟩
    · right; exact ⟨ω, rfl⟩
  have e1 : (Spec.result omega magic p).rates = some (Spec.rates omega magic p) := rfl
  have e2 : (Spec.result omega magic p).method = p.method := rfl
  have e3 : (Spec.result omega magic p).D = p.D := rfl
  have e4 : (Spec.result omega magic p).Q = p.Q := rfl
  generalize Spec.rates omega magic p = r at *
  unfold createMethod
  rw [e1, e2, e3, e4]
  clear e1 e2 e3 e4 h
  constructor
  · intro e he
    rcases hm : p.method <;> rw [hm] at he hrates <;> simp only [Bool.false_eq_true, if_false, reduceCtorEq] at he
    case srt =>
      rcases r with _ | ⟨a, r⟩
      · rcases hrates with ⟨hr, hr'⟩ | ⟨ω, hω⟩
        · right; refine ⟨hr, [], hr', Or.inl ⟨rfl, rfl, by cases he; rfl⟩⟩
        · simp [Method.isKbc] at hω
      · cases he
    case trt =>
      rcases hrates with ⟨hr, hr'⟩ | ⟨ω, hω⟩
      · right
        rcases r with _ | ⟨a, _ | ⟨b, r⟩⟩
        · exact ⟨hr, _, hr', Or.inr ⟨by simp, Or.inl ⟨rfl, by cases he; rfl⟩⟩⟩
        · exact ⟨hr, _, hr', Or.inr ⟨by simp, Or.inl ⟨rfl, by cases he; rfl⟩⟩⟩
        · cases he
      · rw [if_pos (Or.inl rfl)] at hω
        subst hω
        cases he
    all_goals
      by_cases hq : p.D = 2 ∧ p.Q = 9 ∨ p.D = 3 ∧ p.Q = 27
      · rw [if_pos hq] at he
        rcases hrates with ⟨hr, hr'⟩ | ⟨ω, hω⟩
        · right
          rcases r with _ | ⟨a, _ | ⟨b, r⟩⟩
          · exact ⟨hr, _, hr', Or.inr ⟨by simp, Or.inr ⟨rfl, by cases he; rfl⟩⟩⟩
          · exact ⟨hr, _, hr', Or.inr ⟨by simp, Or.inr ⟨rfl, by cases he; rfl⟩⟩⟩
          · cases he
        · have hω := hω.trans (if_pos (Or.inr (by decide)))
          subst hω
          cases he
      · rw [if_neg hq] at he
        left
        exact ⟨by cases he; rfl, rfl, hq⟩
  · rcases hm : p.method <;> simp only [reduceCtorEq, false_and, iff_false, if_true, true_and]
    case cumulant =>
      by_cases hq : p.D ≠ 3 ∧ p.Q ≠ 27
      · rw [if_pos hq]
        simp [hq.1, hq.2]
      · rw [if_neg hq]
        have hq' : p.D = 3 ∨ p.Q = 27 := by
          by_contra hn
          rw [not_or] at hn
          exact hq hn
        by_cases hl : 2 < r.length
        · rw [if_pos hl]
          simp [hq', hl]
        · rw [if_neg hl]
          simp [hq', not_lt.1 hl]
    all_goals
      rcases r with _ | ⟨a, _ | ⟨b, r⟩⟩ <;> simp
    all_goals (split <;> simp)

/-- C56: the stencil check for the fourth-order correction lets D3Q19 pass; only adding the correction raises `ValueError` (C55). -/
theorem C56_fourth_order_stencil_check : ∃ c : Params ℚ, make (K := ℚ) 1 id { force := [0, 0, 0], D := 3, Q := 19, method := .cumulant, compressible := true } = .ok c ∧
    createMethod true c = .ok .cumulantFourthOrder :=
  ⟨_, rfl, by decide⟩

/-- the additions that change a relaxation rate -/
def Stage.isModel : Stage → Bool
  | .entropic | .iterativeEntropic _ | .sgs | .cassons => true
  | _ => false

theorem stages_ok {o : Options} {p : Params K} {l : List Stage} (h : stages o p = .ok l) : (p.densityInput = true → p.velocityInput = true) ∧
    ∃ s0 s3, ((s0 = [] ∧ o.psm = none) ∨ (s0 = [.psm] ∧ o.psm = some (true, true))) ∧
      ((p.entropic = true ∧ o.sgs = false ∧ o.cassons = false ∧ (s3 = [.entropic] ∨ ∃ n, s3 = [.iterativeEntropic n])) ∨
       (p.entropic = false ∧ o.sgs = true ∧ o.cassons = false ∧ s3 = [.sgs]) ∨ (p.entropic = false ∧ o.sgs = false ∧ s3 = [])) ∧
      l = s0 ++ (if o.galilean then [.galilean] else []) ++ (if o.fourthOrder then [.fourthOrder] else []) ++ s3 ++
        (if o.splitGroups then [] else if o.cassons then [.cassons] else []) ++ (if o.output then [.output] else []) ++
        (if p.fluctuating then [.fluctuations] else []) ++ (if o.csePdfs then [.csePdfs] else []) ++
        (if o.cseGlobal then [.cseGlobal] else []) := by
  unfold stages at h
  by_cases hin : p.densityInput = true ∧ ¬ p.velocityInput = true
  · rw [if_pos hin] at h; cases h
  rw [if_neg hin] at h
  refine ⟨fun a => by by_contra b; exact hin ⟨a, b⟩, ?_⟩
  obtain ⟨s0, hs0, hs0'⟩ : ∃ s0, ((s0 = [] ∧ o.psm = none) ∨ (s0 = [Stage.psm] ∧ o.psm = some (true, true))) ∧
      psmStage o.psm = .ok s0 := by
    rcases hp : o.psm with _ | ⟨_ | _, _ | _⟩
    · exact ⟨[], Or.inl ⟨rfl, rfl⟩, rfl⟩
    · rw [hp] at h; cases h
    · rw [hp] at h; cases h
    · rw [hp] at h; cases h
    · exact ⟨[.psm], Or.inr ⟨rfl, rfl⟩, rfl⟩
  simp only at h
  rw [hs0'] at h
  simp only at h
  by_cases hf : o.fourthOrder = true ∧ (p.rates.getD []).length = 1 ∧ ¬ o.ratesIsList = true
  · rw [if_pos hf] at h; cases h
  rw [if_neg hf] at h
  rcases he : p.entropic with _ | _ <;> rcases hs : o.sgs with _ | _ <;> rcases hc : o.cassons with _ | _ <;>
    simp only [he, hs, hc, Bool.false_eq_true, if_false, if_true, or_self, or_true, true_or, reduceCtorEq, Except.ok.injEq] at h
  · exact ⟨s0, [], hs0, Or.inr (Or.inr ⟨rfl, rfl, rfl⟩), by simp [← h]⟩
  · exact ⟨s0, [], hs0, Or.inr (Or.inr ⟨rfl, rfl, rfl⟩), by simp [← h]⟩
  · exact ⟨s0, [.sgs], hs0, Or.inr (Or.inl ⟨rfl, rfl, rfl, rfl⟩), by simp [← h]⟩
  · rcases hn : o.newton with _ | _ | n <;> simp only [hn, Except.ok.injEq] at h
    · exact ⟨s0, [.entropic], hs0, Or.inl ⟨rfl, rfl, rfl, Or.inl rfl⟩, by simp [← h]⟩
    · exact ⟨s0, [.iterativeEntropic 3], hs0, Or.inl ⟨rfl, rfl, rfl, Or.inr ⟨_, rfl⟩⟩, by simp [← h]⟩
    · exact ⟨s0, [.iterativeEntropic n], hs0, Or.inl ⟨rfl, rfl, rfl, Or.inr ⟨_, rfl⟩⟩, by simp [← h]⟩

/-- C56: the additions to the collision rule. Entropic, subgrid-scale and Cassons models exclude each other; each requested addition is made
(Cassons only without the hint `split_groups`, which no method sets), and nothing else. -/
theorem C56_stages (o : Options) (p : Params K) (l : List Stage) (h : stages o p = .ok l) :
    (l.filter Stage.isModel).length ≤ 1 ∧ ¬ (p.entropic = true ∧ o.sgs = true) ∧ ¬ (p.entropic = true ∧ o.cassons = true) ∧
    ¬ (o.sgs = true ∧ o.cassons = true) ∧ (p.densityInput = true → p.velocityInput = true) ∧
    (.psm ∈ l ↔ o.psm.isSome) ∧ (.galilean ∈ l ↔ o.galilean = true) ∧ (.fourthOrder ∈ l ↔ o.fourthOrder = true) ∧
    (.sgs ∈ l ↔ o.sgs = true) ∧ (.cassons ∈ l ↔ o.cassons = true ∧ o.splitGroups = false) ∧ (.output ∈ l ↔ o.output = true) ∧
    (.fluctuations ∈ l ↔ p.fluctuating = true) ∧ ((.entropic ∈ l ∨ ∃ n, .iterativeEntropic n ∈ l) ↔ p.entropic = true) := by
  obtain ⟨hin, s0, s3, h0, h3, rfl⟩ := stages_ok h
  clear h
  have f0 : ∀ (b : Bool) (s : Stage), (if b then [s] else []).filter Stage.isModel = if b && s.isModel then [s] else [] := by
    intro b s; rcases b with _ | _ <;> rcases hs : s.isModel with _ | _ <;> simp [hs]
  have m0 : ∀ (b : Bool) (s t : Stage), t ∈ (if b then [s] else []) ↔ b = true ∧ t = s := by
    intro b s t; rcases b with _ | _ <;> simp
  have hm : ∀ t, t ∈ s0 ++ (if o.galilean then [.galilean] else []) ++ (if o.fourthOrder then [.fourthOrder] else []) ++ s3 ++
        (if o.splitGroups then [] else if o.cassons then [.cassons] else []) ++ (if o.output then [.output] else []) ++
        (if p.fluctuating then [.fluctuations] else []) ++ (if o.csePdfs then [.csePdfs] else []) ++
        (if o.cseGlobal then [.cseGlobal] else []) ↔ t ∈ s0 ∨ (o.galilean = true ∧ t = .galilean) ∨ (o.fourthOrder = true ∧ t = .fourthOrder) ∨
        t ∈ s3 ∨ (o.splitGroups = false ∧ o.cassons = true ∧ t = .cassons) ∨ (o.output = true ∧ t = .output) ∨
        (p.fluctuating = true ∧ t = .fluctuations) ∨ (o.csePdfs = true ∧ t = .csePdfs) ∨ (o.cseGlobal = true ∧ t = .cseGlobal) := by
    intro t
    simp only [List.mem_append, m0, or_assoc]
    rcases o.splitGroups with _ | _
    · simp only [Bool.false_eq_true, if_false, m0, true_and]
    · simp
  refine ⟨?_, ?_, ?_, ?_, hin, ?_⟩
  · clear hm m0
    have f1 : (if o.splitGroups = true then [] else if o.cassons = true then [Stage.cassons] else []).length ≤ 1 := by
      rcases o.splitGroups with _ | _ <;> rcases o.cassons with _ | _ <;> simp
    simp only [List.filter_append, f0, Stage.isModel, Bool.and_false, Bool.false_eq_true, if_false, List.append_nil, List.length_append]
    rcases h0 with ⟨rfl, -⟩ | ⟨rfl, -⟩ <;> rcases h3 with ⟨-, -, c, rfl | ⟨n, rfl⟩⟩ | ⟨-, -, c, rfl⟩ | ⟨-, -, rfl⟩ <;>
      simp [Stage.isModel, *]
    all_goals (first | exact (List.length_filter_le _ _).trans f1 | exact List.length_filter_le _ _)
  · rcases h3 with ⟨a, b, c, -⟩ | ⟨a, b, c, -⟩ | ⟨a, b, -⟩ <;> simp [a, b]
  · rcases h3 with ⟨a, b, c, -⟩ | ⟨a, b, c, -⟩ | ⟨a, b, -⟩ <;> simp [a, *]
  · rcases h3 with ⟨a, b, c, -⟩ | ⟨a, b, c, -⟩ | ⟨a, b, -⟩ <;> simp [b, *]
  · simp only [hm]
    clear hm m0 f0
    rcases h0 with ⟨rfl, p0⟩ | ⟨rfl, p0⟩ <;> rcases h3 with ⟨a, b, c, rfl | ⟨n, rfl⟩⟩ | ⟨a, b, c, rfl⟩ | ⟨a, b, rfl⟩ <;>
      simp [p0, a, b, and_comm]

/-- C56: the kernel. The legacy kernel types give the pattern of their name; a periodic accessor is used for the pull pattern only: the option
`builtin_periodicity` is silently ignored for all other patterns. -/
theorem C56_kernel {omega : K} {magic : K → K} {p c : Params K} (h : make omega magic p = .ok c) (per : List Bool) :
    (∀ s t, p.kernelType.legacy = some (s, t) → chooseKernel [false, false, false] c = .ok (.pattern s t)) ∧
    (chooseKernel per c = .ok .periodic ↔ (p.kernelType = .streamPullCollide ∨ p.kernelType = .defaultStreamCollide ∧ p.pattern = "pull") ∧
      true ∈ per) ∧
    (c.pattern ≠ "pull" → chooseKernel per c = chooseKernel [] c) := by
  obtain ⟨-, -, rfl⟩ := make_ok h
  rcases p with ⟨D, Q, m, r, r1, c, z, d, fm, F, s, e, fl, b, vi, di, cm, kt, pa, ts⟩
  have hany : per.any id = true ↔ true ∈ per := by simp
  refine ⟨?_, ?_, ?_⟩
  · intro s t hs
    simp only at hs
    cases kt <;> cases hs <;> rfl
  · have key : ∀ q : Params K, q.kernelType = .defaultStreamCollide →
        (chooseKernel per q = .ok .periodic ↔ q.pattern = "pull" ∧ true ∈ per) := by
      intro q hq
      rw [← hany]
      unfold chooseKernel
      simp only [hq]
      by_cases hs : q.pattern = "pull" ∧ per.any id = true
      · simp only [if_pos hs, true_iff]
        exact hs
      · rw [if_neg hs]
        rcases getAccessor q.D q.pattern q.timestep with _ | a
        · simp only [reduceCtorEq, false_iff]
          exact hs
        · simp only [Except.ok.injEq, reduceCtorEq, false_iff]
          exact hs
    cases kt
    case defaultStreamCollide =>
      refine (key _ rfl).trans ?_
      simp [Spec.result, KernelType.legacy]
    case streamPullCollide =>
      refine (key _ rfl).trans ?_
      simp [Spec.result, KernelType.legacy]
    case collideStreamPush =>
      refine (key _ rfl).trans ?_
      simp [Spec.result, KernelType.legacy]
    case aaEven =>
      refine (key _ rfl).trans ?_
      simp [Spec.result, KernelType.legacy]
    case aaOdd =>
      refine (key _ rfl).trans ?_
      simp [Spec.result, KernelType.legacy]
    case esotwistEven =>
      refine (key _ rfl).trans ?_
      simp [Spec.result, KernelType.legacy]
    case esotwistOdd =>
      refine (key _ rfl).trans ?_
      simp [Spec.result, KernelType.legacy]
    all_goals simp [chooseKernel, Spec.result, KernelType.legacy]
  · intro hp
    unfold chooseKernel
    split <;> try rfl
    rw [if_neg (fun h => hp h.1), if_neg (fun h => hp h.1)]

/-- C56: in the dictionary `optimization`, unknown keys are ignored without a message; the `KeyError` for them is never raised. -/
theorem C56_optimisation {V : Type} (opt : List (String × V)) (current : String → Option V)
    (hc : ∀ k ∈ optimisationKeys, (current k).isSome) :
    ∃ new, updateOptimisation opt current = .ok new ∧ ∀ k, k ∉ optimisationKeys ∨ k ∉ opt.map Prod.fst → new k = current k := by
  have hk : (opt.filter fun kv => optimisationKeys.contains kv.1).any (fun kv => (current kv.1).isNone) = false := by
    rw [List.any_eq_false]
    intro kv hkv
    have := hc kv.1 (by simpa using (List.mem_filter.1 hkv).2)
    simpa [Option.isSome_iff_ne_none] using this
  refine ⟨_, by unfold updateOptimisation; simp only [hk, Bool.false_eq_true, if_false]; rfl, fun k hn => ?_⟩
  have : (opt.filter fun kv => optimisationKeys.contains kv.1).reverse.lookup k = none := by
    rw [List.lookup_eq_none_iff]
    intro kv hkv
    rw [List.mem_reverse, List.mem_filter] at hkv
    rw [bne_iff_ne]
    rintro rfl
    rcases hn with hn | hn
    · exact hn (by simpa using hkv.2)
    · exact hn (List.mem_map_of_mem hkv.1)
  simp only [this]

/-! ### Examples -/

/-- a two-rate method with a force, an output and a legacy kernel type -/
def exampleParams : Params ℚ :=
  { force := [1, 0, 0], method := .trt, rate := some 1, kernelType := .aaOdd, velocityInput := true }

/-- what becomes of it -/
def exampleResult : Params ℚ :=
  { force := [1, 0, 0], method := .trt, rates := some [1, 2], rate := some 1, delta := some true, space := some .populations,
    forceModel := .object .guo [1, 0], pattern := "aa", timestep := .odd, velocityInput := true, conservedMoments := false }

example : make 1 (fun ω => 2 * ω) exampleParams = .ok exampleResult ∧ createMethod false exampleResult = .ok (.trt 1 2) ∧
    chooseKernel [true] exampleResult = .ok (.pattern "aa" .odd) ∧ make 1 (fun ω => 2 * ω) exampleResult = .ok exampleResult := by
  decide +kernel

example : stages { psm := some (true, true), cassons := true, output := true } exampleParams = .ok [.psm, .cassons, .output] := by decide

example : stages { cassons := true, sgs := true } exampleParams = .error .valueError := by decide

end Config
end Lbm
