/-
Helper lemmas about the accessors and sweeps of `Verif/Streaming.lean`.
-/
import Verif.Streaming
import Mathlib.Tactic.Linarith
import Mathlib.Tactic.FinCases
import Mathlib.Algebra.Order.Group.Unbundled.Int

namespace Lbm

variable {D : ℕ}

theorem collect_eq_some {Q : ℕ} {α : Type} {f : Fin Q → Option α} {g : Fin Q → α} :
    collect f = some g ↔ ∀ i, f i = some (g i) := by
  unfold collect
  constructor
  · intro h i
    split at h
    · injection h with h; subst h; simp
    · cases h
  · intro h
    have h' : ∀ i, (f i).isSome := fun i => by rw [h i]; rfl
    rw [dif_pos h']
    congr 1; funext i
    simp [h i]

theorem pull_read (S : Stencil D) : (pull : Accessor D).read S = some fun i => (-S.c i, i) :=
  collect_eq_some.2 fun _ => rfl

theorem exists_inv {S : Stencil D} (hv : S.Valid) (hc : S.InvClosed) :
    ∃ inv : Fin S.Q → Fin S.Q, (∀ i, S.inverseIndex (S.c i) = some (inv i)) ∧
      (∀ i, S.c (inv i) = -S.c i) ∧ (∀ i, inv (inv i) = i) ∧ Function.Injective inv := by
  choose inv hinv using hc
  have h2 : ∀ i, inv (inv i) = i := fun i => hv (by rw [hinv, hinv, neg_neg])
  exact ⟨inv, fun i => (Stencil.index_eq_some hv).2 (hinv i), hinv, h2,
    fun i j h => by rw [← h2 i, ← h2 j, h]⟩

/-- Stencils the esoteric pull/push accessors are made for: the rest velocity comes first and all velocities occur
in Lehmann's list of that size. -/
def EsoOk (S : Stencil D) : Prop :=
  (∀ i : Fin S.Q, i.val = 0 → S.c i = 0) ∧
    ∃ l, lehmannStencil S = some l ∧ ∀ i, List.ofFn (S.c i) ∈ l

/-- Stencils supported by a streaming pattern. -/
def Supported (S : Stencil D) (p : String) : Prop :=
  p ∈ streamingPatterns ∧ S.Valid ∧ (p ∈ ["aa", "esotwist", "esopull", "esopush"] → S.InvClosed) ∧
    (p ∈ ["esopull", "esopush"] → EsoOk S)

/-- `b` tells the parity of the position of `e` in `l`, and the position of `-e` has the other parity. -/
def ParityOk (l : List (List ℤ)) (e : List ℤ) : Prop :=
  (∃ k, l.findIdx? (fun x => x = e) = some k ∧ ∃ k', l.findIdx? (fun x => x = e.map (- ·)) = some k' ∧
      k % 2 ≠ k' % 2)

instance (l e) : Decidable (ParityOk l e) :=
  decidable_of_iff
    ((match l.findIdx? (fun x => x = e), l.findIdx? (fun x => x = e.map (- ·)) with
      | some k, some k' => decide (k % 2 ≠ k' % 2)
      | _, _ => false) = true) (by
      unfold ParityOk
      split <;> simp_all)

theorem parity_tables : ∀ l ∈ [Tables.D2Q9_lehmann, Tables.D3Q15_lehmann, Tables.D3Q19_lehmann, Tables.D3Q27_lehmann],
    ∀ e ∈ l, (∃ k ∈ e, k ≠ 0) → ParityOk l e := by decide +kernel

theorem lehmann_mem {S : Stencil D} {l} (h : lehmannStencil S = some l) :
    l ∈ [Tables.D2Q9_lehmann, Tables.D3Q15_lehmann, Tables.D3Q19_lehmann, Tables.D3Q27_lehmann] := by
  unfold lehmannStencil at h
  split_ifs at h <;> simp_all

theorem ofFn_neg (d : Vec D) : List.ofFn (-d) = (List.ofFn d).map (- ·) := by
  rw [List.map_ofFn]; rfl

theorem eso_parity {S : Stencil D} (hv : S.Valid) (he : EsoOk S) (i : Fin S.Q) (hi : i.val ≠ 0) :
    ∃ b, lehmannEven S (S.c i) = some b ∧ lehmannEven S (-S.c i) = some (!b) := by
  obtain ⟨h0, l, hl, hm⟩ := he
  have hne : S.c i ≠ 0 := by
    intro h
    have hpos : 0 < S.Q := lt_of_le_of_lt (Nat.zero_le _) i.isLt
    have := h0 ⟨0, hpos⟩ rfl
    rw [← this] at h
    exact hi (congrArg Fin.val (hv h))
  have hex : ∃ k ∈ List.ofFn (S.c i), k ≠ 0 := by
    by_contra hcon
    push Not at hcon
    apply hne
    funext k
    exact hcon _ (List.mem_ofFn.2 ⟨k, rfl⟩)
  obtain ⟨k, hk, k', hk', hkk⟩ := parity_tables l (lehmann_mem hl) _ (hm i) hex
  refine ⟨k % 2 == 0, ?_, ?_⟩
  · simp [lehmannEven, hl, hk]
  · rw [← ofFn_neg] at hk'
    simp only [lehmannEven, hl, hk', Option.bind_eq_bind, Option.bind_some, pure, Option.some.injEq]
    rcases Nat.mod_two_eq_zero_or_one k with h | h <;> rcases Nat.mod_two_eq_zero_or_one k' with h' | h' <;>
      simp_all

/-- The facts about one step of a pattern every other proof rests on. -/
structure StepFacts (S : Stencil D) (p : String) (ts : Timestep) (a : Accessor D)
    (rd wr rd' : Fin S.Q → Access D S.Q) : Prop where
  acc : getAccessor D p ts = some a
  read : a.read S = some rd
  write : a.write S = some wr
  next : ∃ a', getAccessor D p ts.next = some a' ∧ a'.read S = some rd'
  rd_inj : Function.Injective fun i => (rd i).2
  wr_inj : Function.Injective fun i => (wr i).2
  rd'_inj : Function.Injective fun i => (rd' i).2
  chain : ∀ i, (wr i).2 = (rd' i).2 ∧ (wr i).1 = S.c i + (rd' i).1
  inplace : a.isInplace = true → ∃ σ : Fin S.Q → Fin S.Q, Function.Bijective σ ∧ (∀ i, wr i = rd (σ i)) ∧ ∀ i, S.c (σ i) = -S.c i
  flag : isInplace p = some a.isInplace

/-- The timesteps a pattern is used with (those of `get_timesteps`). -/
def TsOk (p : String) (ts : Timestep) : Prop := ∃ l, getTimesteps p = some l ∧ ts ∈ l

theorem max_neg_add (e : ℤ) : max e 0 = e + max (-e) 0 := by omega

theorem esoAccess_eq {S : Stencil D} (b : Fin S.Q → Bool)
    (hb : ∀ i : Fin S.Q, i.val ≠ 0 → lehmannEven S (S.c i) = some (b i))
    (ev od : Fin S.Q → Option (Access D S.Q)) (ev' od' : Fin S.Q → Access D S.Q)
    (h1 : ∀ i, ev i = some (ev' i)) (h2 : ∀ i, od i = some (od' i)) :
    esoAccess S ev od = some fun i => if i.val = 0 then (0, i) else if b i then ev' i else od' i := by
  unfold esoAccess
  rw [collect_eq_some]
  intro i
  split_ifs with h0 hbi
  · rfl
  · simp [hb i h0, hbi, h1]
  · simp [hb i h0, hbi, h2]

theorem stepFacts {S : Stencil D} {p : String} (hs : Supported S p) {ts : Timestep} (ht : TsOk p ts) :
    ∃ a rd wr rd', StepFacts S p ts a rd wr rd' := by
  obtain ⟨hp, hv, hc, he⟩ := hs
  obtain ⟨l, hl, htl⟩ := ht
  simp only [streamingPatterns, List.mem_cons, List.not_mem_nil, or_false] at hp
  rcases hp with rfl | rfl | rfl | rfl | rfl | rfl
  · -- push
    obtain rfl : l = [.both] := by
      have : getTimesteps "push" = some [.both] := by decide
      rw [this] at hl; exact (Option.some.inj hl).symm
    obtain rfl : ts = .both := by simpa using htl
    refine ⟨push, fun i => (0, i), fun i => (S.c i, i), fun i => (0, i), rfl, ?_, ?_, ⟨push, rfl, ?_⟩, ?_, ?_, ?_,
      ?_, ?_, rfl⟩
    · exact collect_eq_some.2 fun i => rfl
    · exact collect_eq_some.2 fun i => rfl
    · exact collect_eq_some.2 fun i => rfl
    · exact fun i j h => h
    · exact fun i j h => h
    · exact fun i j h => h
    · intro i; simp
    · intro h; cases h
  · -- pull
    obtain rfl : l = [.both] := by
      have : getTimesteps "pull" = some [.both] := by decide
      rw [this] at hl; exact (Option.some.inj hl).symm
    obtain rfl : ts = .both := by simpa using htl
    refine ⟨pull, fun i => (-S.c i, i), fun i => (0, i), fun i => (-S.c i, i), rfl, ?_, ?_, ⟨pull, rfl, ?_⟩, ?_, ?_,
      ?_, ?_, ?_, rfl⟩
    · exact collect_eq_some.2 fun i => rfl
    · exact collect_eq_some.2 fun i => rfl
    · exact collect_eq_some.2 fun i => rfl
    · exact fun i j h => h
    · exact fun i j h => h
    · exact fun i j h => h
    · intro i; simp
    · intro h; cases h
  all_goals
    first
    | have hc' := hc (by decide)
    obtain ⟨inv, hidx, hcinv, hinv2, hinj⟩ := exists_inv hv hc'
    have hbij : Function.Bijective inv := ⟨hinj, fun i => ⟨inv i, hinv2 i⟩⟩
  · -- aa
    obtain rfl : l = [.even, .odd] := by
      have : getTimesteps "aa" = some [.even, .odd] := by decide
      rw [this] at hl; exact (Option.some.inj hl).symm
    simp only [List.mem_cons, List.not_mem_nil, or_false] at htl
    have e1 : (aaEven : Accessor D).read S = some fun i => (0, i) := collect_eq_some.2 fun i => rfl
    have e2 : (aaEven : Accessor D).write S = some fun i => (0, inv i) :=
      collect_eq_some.2 fun i => by simp [hidx]
    have o1 : (aaOdd : Accessor D).read S = some fun i => (-S.c i, inv i) :=
      collect_eq_some.2 fun i => by simp [hidx]
    have o2 : (aaOdd : Accessor D).write S = some fun i => (S.c i, i) := collect_eq_some.2 fun i => rfl
    rcases htl with rfl | rfl
    · refine ⟨aaEven, _, _, _, rfl, e1, e2, ⟨aaOdd, rfl, o1⟩, fun i j h => h, hinj, hinj, ?_, ?_, rfl⟩
      · intro i; simp
      · intro _; exact ⟨inv, hbij, fun i => rfl, hcinv⟩
    · refine ⟨aaOdd, _, _, _, rfl, o1, o2, ⟨aaEven, rfl, e1⟩, hinj, fun i j h => h, fun i j h => h, ?_, ?_,
        rfl⟩
      · intro i; simp
      · intro _; exact ⟨inv, hbij, fun i => by simp [hcinv, hinv2], hcinv⟩
  · -- esotwist
    obtain rfl : l = [.even, .odd] := by
      have : getTimesteps "esotwist" = some [.even, .odd] := by decide
      rw [this] at hl; exact (Option.some.inj hl).symm
    simp only [List.mem_cons, List.not_mem_nil, or_false] at htl
    have e1 : (esoTwistEven : Accessor D).read S = some fun i => (fun k => max (-(S.c i k)) 0, i) :=
      collect_eq_some.2 fun i => rfl
    have e2 : (esoTwistEven : Accessor D).write S = some fun i => (posPart (S.c i), inv i) :=
      collect_eq_some.2 fun i => by simp [hidx]
    have o1 : (esoTwistOdd : Accessor D).read S = some fun i => (posPart (-S.c i), inv i) :=
      collect_eq_some.2 fun i => by simp [hidx]
    have o2 : (esoTwistOdd : Accessor D).write S = some fun i => (posPart (S.c i), i) := collect_eq_some.2 fun i => rfl
    rcases htl with rfl | rfl
    · refine ⟨esoTwistEven, _, _, _, rfl, e1, e2, ⟨esoTwistOdd, rfl, o1⟩, fun i j h => h, hinj, hinj, ?_, ?_,
        rfl⟩
      · intro i; refine ⟨rfl, ?_⟩; funext k; simp only [posPart, Pi.add_apply, Pi.neg_apply]; exact max_neg_add _
      · intro _; refine ⟨inv, hbij, fun i => ?_, hcinv⟩
        ext k
        · simp [posPart, hcinv]
        · rfl
    · refine ⟨esoTwistOdd, _, _, _, rfl, o1, o2, ⟨esoTwistEven, rfl, e1⟩, hinj, fun i j h => h, fun i j h => h, ?_, ?_,
        rfl⟩
      · intro i; refine ⟨rfl, ?_⟩; funext k; simp only [posPart, Pi.add_apply]; exact max_neg_add _
      · intro _; refine ⟨inv, hbij, fun i => ?_, hcinv⟩
        ext k
        · simp [posPart, hcinv]
        · simp [hinv2]
  all_goals
    have he' := he (by decide)
    have hp' : ∀ i : Fin S.Q, ∃ b : Bool, i.val ≠ 0 →
        (lehmannEven S (S.c i) = some b ∧ lehmannEven S (S.c (inv i)) = some (!b)) := by
      intro i
      by_cases h0 : i.val = 0
      · exact ⟨true, fun h => absurd h0 h⟩
      · obtain ⟨b, hb⟩ := eso_parity hv he' i h0
        exact ⟨b, fun _ => by rw [hcinv]; exact hb⟩
    choose b hb using hp'
    have hz : ∀ i : Fin S.Q, i.val = 0 → inv i = i := fun i h => hv (by
      rw [hcinv, he'.1 i h, neg_zero])
    have hz' : ∀ i : Fin S.Q, (inv i).val = 0 ↔ i.val = 0 := fun i => by
      constructor
      · intro h; have := hz _ h; rw [hinv2] at this; rw [this]; exact h
      · intro h; rw [hz i h]; exact h
    have hbinv : ∀ i : Fin S.Q, i.val ≠ 0 → b (inv i) = !(b i) := fun i h => by
      have h1 := (hb i h).2
      have h2 := (hb (inv i) (mt (hz' i).1 h)).1
      rw [h1] at h2; exact (Option.some.inj h2).symm
    have hb1 : ∀ i : Fin S.Q, i.val ≠ 0 → lehmannEven S (S.c i) = some (b i) := fun i h => (hb i h).1
    have inj1 : Function.Injective fun i : Fin S.Q => i := fun i j h => h
    have inj2 : Function.Injective fun i : Fin S.Q => if i.val = 0 then i else inv i := by
      intro i j h
      have : ∀ i : Fin S.Q, (if i.val = 0 then i else inv i) = inv i := by
        intro i; split_ifs with h0
        · exact (hz i h0).symm
        · rfl
      simp only [this] at h
      exact hinj h
    have inj3 : ∀ (x : Fin S.Q → Vec D) (y : Fin S.Q → Vec D), Function.Injective fun i : Fin S.Q =>
        (if i.val = 0 then ((0 : Vec D), i) else if b i then (x i, i) else (y i, i)).2 := by
      intro x y i j h
      have : ∀ i : Fin S.Q, (if i.val = 0 then ((0 : Vec D), i) else if b i then (x i, i) else (y i, i)).2 = i := by
        intro i; split_ifs <;> rfl
      simpa only [this] using h
    have inj4 : ∀ (x : Fin S.Q → Vec D) (y : Fin S.Q → Vec D), Function.Injective fun i : Fin S.Q =>
        (if i.val = 0 then ((0 : Vec D), i) else if b i then (x i, inv i) else (y i, inv i)).2 := by
      intro x y i j h
      have : ∀ i : Fin S.Q,
          (if i.val = 0 then ((0 : Vec D), i) else if b i then (x i, inv i) else (y i, inv i)).2 = inv i := by
        intro i; split_ifs with h0
        · exact (hz i h0).symm
        · rfl
        · rfl
      simp only [this] at h
      exact hinj h
    have hc0 : ∀ i : Fin S.Q, i.val = 0 → S.c i = 0 := he'.1
  · -- esopull
    obtain rfl : l = [.even, .odd] := by
      have : getTimesteps "esopull" = some [.even, .odd] := by decide
      rw [this] at hl; exact (Option.some.inj hl).symm
    simp only [List.mem_cons, List.not_mem_nil, or_false] at htl
    have e1 : (esoPullEven : Accessor D).read S = _ :=
      esoAccess_eq b hb1 _ _ (fun i => (-S.c i, i)) (fun i => (0, i)) (fun i => rfl) (fun i => rfl)
    have e2 : (esoPullEven : Accessor D).write S = _ :=
      esoAccess_eq b hb1 _ _ (fun i => (0, inv i)) (fun i => (S.c i, inv i)) (fun i => by simp [hidx])
        (fun i => by simp [hidx])
    have o1 : (esoPullOdd : Accessor D).read S = _ :=
      esoAccess_eq b hb1 _ _ (fun i => (-S.c i, inv i)) (fun i => (0, inv i)) (fun i => by simp [hidx])
        (fun i => by simp [hidx])
    have o2 : (esoPullOdd : Accessor D).write S = _ :=
      esoAccess_eq b hb1 _ _ (fun i => (0, i)) (fun i => (S.c i, i)) (fun i => rfl) (fun i => rfl)
    rcases htl with rfl | rfl
    · refine ⟨esoPullEven, _, _, _, rfl, e1, e2, ⟨esoPullOdd, rfl, o1⟩, inj3 _ _, inj4 _ _, inj4 _ _, ?_, ?_,
        rfl⟩
      · intro i; split_ifs with h0 hbi <;> simp_all
      · intro _; refine ⟨inv, hbij, fun i => ?_, hcinv⟩
        simp only [hz']
        split_ifs with h0 hbi hbj hbj
        · rw [hz i h0]
        · rw [hbinv i h0, hbi] at hbj; cases hbj
        · rfl
        · rw [hcinv, neg_neg]
        · rw [hbinv i h0] at hbj; simp_all
    · refine ⟨esoPullOdd, _, _, _, rfl, o1, o2, ⟨esoPullEven, rfl, e1⟩, inj4 _ _, inj3 _ _, inj3 _ _, ?_, ?_,
        rfl⟩
      · intro i; split_ifs with h0 hbi <;> simp_all
      · intro _; refine ⟨inv, hbij, fun i => ?_, hcinv⟩
        simp only [hz', hinv2]
        split_ifs with h0 hbi hbj hbj
        · rw [hz i h0]
        · rw [hbinv i h0, hbi] at hbj; cases hbj
        · rfl
        · rw [hcinv, neg_neg]
        · rw [hbinv i h0] at hbj; simp_all
  · -- esopush
    obtain rfl : l = [.even, .odd] := by
      have : getTimesteps "esopush" = some [.even, .odd] := by decide
      rw [this] at hl; exact (Option.some.inj hl).symm
    simp only [List.mem_cons, List.not_mem_nil, or_false] at htl
    have e1 : (esoPushEven : Accessor D).read S = _ :=
      esoAccess_eq b hb1 _ _ (fun i => (0, inv i)) (fun i => (-S.c i, inv i)) (fun i => by simp [hidx])
        (fun i => by simp [hidx])
    have e2 : (esoPushEven : Accessor D).write S = _ :=
      esoAccess_eq b hb1 _ _ (fun i => (S.c i, i)) (fun i => (0, i)) (fun i => rfl) (fun i => rfl)
    have o1 : (esoPushOdd : Accessor D).read S = _ :=
      esoAccess_eq b hb1 _ _ (fun i => (0, i)) (fun i => (-S.c i, i)) (fun i => rfl) (fun i => rfl)
    have o2 : (esoPushOdd : Accessor D).write S = _ :=
      esoAccess_eq b hb1 _ _ (fun i => (S.c i, inv i)) (fun i => (0, inv i)) (fun i => by simp [hidx])
        (fun i => by simp [hidx])
    rcases htl with rfl | rfl
    · refine ⟨esoPushEven, _, _, _, rfl, e1, e2, ⟨esoPushOdd, rfl, o1⟩, inj4 _ _, inj3 _ _, inj3 _ _, ?_, ?_,
        rfl⟩
      · intro i; split_ifs with h0 hbi <;> simp_all
      · intro _; refine ⟨inv, hbij, fun i => ?_, hcinv⟩
        simp only [hz', hinv2]
        split_ifs with h0 hbi hbj hbj
        · rw [hz i h0]
        · rw [hbinv i h0, hbi] at hbj; cases hbj
        · rw [hcinv, neg_neg]
        · rfl
        · rw [hbinv i h0] at hbj; simp_all
    · refine ⟨esoPushOdd, _, _, _, rfl, o1, o2, ⟨esoPushEven, rfl, e1⟩, inj3 _ _, inj4 _ _, inj4 _ _, ?_, ?_,
        rfl⟩
      · intro i; split_ifs with h0 hbi <;> simp_all
      · intro _; refine ⟨inv, hbij, fun i => ?_, hcinv⟩
        simp only [hz']
        split_ifs with h0 hbi hbj hbj
        · rw [hz i h0]
        · rw [hbinv i h0, hbi] at hbj; cases hbj
        · rw [hcinv, neg_neg]
        · rfl
        · rw [hbinv i h0] at hbj; simp_all

end Lbm
