/-
C33: distribution of relaxation rates to moments.
-/
import Verif.RelaxationInfo
import Verif.StencilTables
import Mathlib.Data.List.Dedup

set_option linter.unusedSectionVars false

namespace Lbm

/-! ### Specification -/

namespace Spec

/-- kinds of moments the documentation distinguishes -/
inductive MomentKind where
  | conserved
  | shear
  | bulk
  | other
  deriving DecidableEq

variable {M K : Type}

/-- order 0 and 1: conserved, or relaxed like shear moments when they are not to be conserved -/
def kind (c : Classify M) (conserved : Bool) (m : M) : MomentKind :=
  if c.order m ≤ 1 then (if conserved then .conserved else .shear)
  else if c.shear m then .shear
  else if c.bulk m then .bulk
  else .other

/-- groups before position `i` that have a moment of kind `other` -/
def groupsBefore (c : Classify M) (nested : List (List M)) (i : ℕ) : ℕ :=
  (nested.take i).countP fun g => g.any fun m => decide (kind c true m = .other)

/-- number of leading rates that are taken by shear and bulk -/
def reserved (c : Classify M) (nested : List (List M)) : ℕ :=
  (if ∃ m ∈ nested.flatten, c.shear m then 1 else 0) + (if ∃ m ∈ nested.flatten, c.bulk m then 1 else 0)

/-- the documented rate of a moment in group `i`: shear first, then bulk, then one rate per group of other moments -/
def groupedRate [Zero K] (c : Classify M) (conserved : Bool) (rates : List K) (nested : List (List M)) (i : ℕ) (m : M) :
    Option K :=
  match kind c conserved m with
  | .conserved => some 0
  | .shear => rates[0]?
  | .bulk => rates[if ∃ m ∈ nested.flatten, c.shear m then 1 else 0]?
  | .other => rates[reserved c nested + groupsBefore c nested i]?

end Spec

open Spec

/-! ### Helpers -/

variable {M K : Type} [DecidableEq M]

theorem dictOf_nodup (l : List (M × K)) (h : (l.map Prod.fst).Nodup) : dictOf l = l := by
  have key : ∀ (l acc : List (M × K)), ((acc ++ l).map Prod.fst).Nodup →
      l.foldl (fun d e => if e.1 ∈ d.map Prod.fst then d.map fun x => if x.1 = e.1 then (x.1, e.2) else x
        else d ++ [e]) acc = acc ++ l := by
    intro l
    induction l with
    | nil => intro acc _; simp
    | cons e l ih =>
      intro acc h
      rw [List.foldl_cons, if_neg, ih]
      · simp
      · simpa using h
      · intro hm
        rw [List.map_append, List.nodup_append] at h
        exact h.2.2 _ hm _ (by simp) rfl
  have := key l [] (by simpa using h)
  simpa [dictOf] using this

theorem mem_zip_flatten {nested : List (List M)} {rates : List K} (h : rates.length = nested.flatten.length) :
    (List.zip nested.flatten rates).map Prod.fst = nested.flatten := by
  rw [List.map_fst_zip]; omega

theorem usesGroupRate_eq (c : Classify M) (m : M) : usesGroupRate c m = decide (Spec.kind c true m = .other) := by
  unfold usesGroupRate Spec.kind
  by_cases h1 : c.order m ≤ 1 <;> cases h2 : c.shear m <;> cases h3 : c.bulk m <;> simp [h1]

section
variable [Zero K]

/-- rate of one moment in the loop, when the local variables are bound -/
def loopRate (c : Classify M) (conserved : Bool) (shear bulk rr : Option K) (m : M) : Option K :=
  match Spec.kind c conserved m with
  | .conserved => some 0
  | .shear => shear
  | .bulk => bulk
  | .other => rr

theorem fallbackRate_of (c : Classify M) (conserved : Bool) (shear bulk rr : Option K) (m : M) {v : K}
    (h : loopRate c conserved shear bulk rr m = some v) : fallbackRate c conserved shear bulk rr m = .ok v := by
  unfold loopRate Spec.kind at h
  unfold fallbackRate
  cases conserved <;> by_cases h1 : c.order m ≤ 1 <;> cases h2 : c.shear m <;> cases h3 : c.bulk m <;>
    simp_all [bound]

/-- the local variables for shear and bulk are bound whenever a moment reads them -/
def Bound (c : Classify M) (conserved : Bool) (shear bulk : Option K) (l : List M) : Prop :=
  ∀ m ∈ l, (Spec.kind c conserved m = .shear → shear.isSome) ∧ (Spec.kind c conserved m = .bulk → bulk.isSome)

theorem fallbackLoop_spec (c : Classify M) (conserved : Bool) (shear bulk : Option K) (gs : List (List M)) :
    ∀ (it : List K) (rr : Option K) (next : Bool), (next = false → rr.isSome) → Bound c conserved shear bulk gs.flatten →
      let pool := if next then it else rr.toList ++ it
      ((∀ i < gs.length, Spec.groupsBefore c gs i < pool.length) →
        ∃ l, fallbackLoop c conserved shear bulk gs it rr next = .ok l ∧ l.map Prod.fst = gs.flatten ∧
          ∀ (i : ℕ) (g : List M), gs[i]? = some g → ∀ m ∈ g, ∃ v, (m, v) ∈ l ∧
            loopRate c conserved shear bulk pool[Spec.groupsBefore c gs i]? m = some v) ∧
      ((∃ i < gs.length, pool.length ≤ Spec.groupsBefore c gs i) →
        fallbackLoop c conserved shear bulk gs it rr next = .error .valueError) := by
  induction gs with
  | nil =>
    intro it rr next _ _
    exact ⟨fun _ => ⟨[], rfl, rfl, by simp⟩, by simp⟩
  | cons g gs ih =>
    -- the case where the current rate is bound and no new one is fetched
    have step : ∀ (r : K) (it : List K), Bound c conserved shear bulk (g :: gs).flatten →
        ((∀ i < (g :: gs).length, Spec.groupsBefore c (g :: gs) i < (r :: it).length) →
          ∃ l, fallbackLoop c conserved shear bulk (g :: gs) it (some r) false = .ok l ∧
            l.map Prod.fst = (g :: gs).flatten ∧
            ∀ (i : ℕ) (g' : List M), (g :: gs)[i]? = some g' → ∀ m ∈ g', ∃ v, (m, v) ∈ l ∧
              loopRate c conserved shear bulk (r :: it)[Spec.groupsBefore c (g :: gs) i]? m = some v) ∧
        ((∃ i < (g :: gs).length, (r :: it).length ≤ Spec.groupsBefore c (g :: gs) i) →
          fallbackLoop c conserved shear bulk (g :: gs) it (some r) false = .error .valueError) := by
      intro r it hB
      have hBg : Bound c conserved shear bulk gs.flatten := fun m hm => hB m (by
        rw [List.flatten_cons]; exact List.mem_append_right _ hm)
      have hval : ∀ m ∈ g, ∃ v, loopRate c conserved shear bulk (some r) m = some v := by
        intro m hm
        have hb := hB m (by rw [List.flatten_cons]; exact List.mem_append_left _ hm)
        unfold loopRate
        split
        · exact ⟨0, rfl⟩
        · rename_i hk; exact Option.isSome_iff_exists.mp (hb.1 hk)
        · rename_i hk; exact Option.isSome_iff_exists.mp (hb.2 hk)
        · exact ⟨r, rfl⟩
      have hmap : ∃ vs, (g.mapM fun m => do
          let v ← fallbackRate c conserved shear bulk (some r) m
          Except.ok (m, v)) = Except.ok vs ∧ vs.map Prod.fst = g ∧
          ∀ m ∈ g, ∃ v, (m, v) ∈ vs ∧ loopRate c conserved shear bulk (some r) m = some v := by
        clear hB hBg ih
        induction g with
        | nil => exact ⟨[], rfl, rfl, by simp⟩
        | cons m g ih =>
          obtain ⟨vs, e1, e2, e3⟩ := ih fun m hm => hval m (by simp [hm])
          obtain ⟨v, hv⟩ := hval m (by simp)
          refine ⟨(m, v) :: vs, ?_, by simp [e2], ?_⟩
          · rw [List.mapM_cons, fallbackRate_of _ _ _ _ _ _ hv]
            simp only [bind, Except.bind] at e1 ⊢
            rw [e1]; rfl
          · intro m' hm'
            rcases List.mem_cons.mp hm' with rfl | hm'
            · exact ⟨v, by simp, hv⟩
            · obtain ⟨v', h1, h2⟩ := e3 m' hm'
              exact ⟨v', by simp [h1], h2⟩
      obtain ⟨vs, e1, e2, e3⟩ := hmap
      have hany : g.any (usesGroupRate c) = g.any fun m => decide (Spec.kind c true m = .other) := by
        congr 1; funext m; exact usesGroupRate_eq c m
      set b := g.any (usesGroupRate c) with hb
      have hk0 : Spec.groupsBefore c (g :: gs) 0 = 0 := by simp [Spec.groupsBefore]
      have hks : ∀ i, Spec.groupsBefore c (g :: gs) (i + 1) = Spec.groupsBefore c gs i + if b then 1 else 0 := by
        intro i; rw [Spec.groupsBefore, List.take_succ_cons, List.countP_cons, ← hany]; rfl
      have hun : fallbackLoop c conserved shear bulk (g :: gs) it (some r) false =
          (do let rest ← fallbackLoop c conserved shear bulk gs it (some r) b; Except.ok (vs ++ rest)) := by
        show (do
          let x ← (Except.ok (some r, it) : Except PyErr (Option K × List K))
          let vs ← g.mapM fun m => do Except.ok (m, ← fallbackRate c conserved shear bulk x.1 m)
          let rest ← fallbackLoop c conserved shear bulk gs x.2 x.1 (g.any (usesGroupRate c))
          Except.ok (vs ++ rest)) = _
        simp only [bind, Except.bind] at e1 ⊢
        rw [e1]
      obtain ⟨ih1, ih2⟩ := ih it (some r) b (by simp) hBg
      set pool := if b then it else (some r).toList ++ it with hp
      have hpl : (r :: it).length = pool.length + if b then 1 else 0 := by
        rw [hp]; cases b <;> simp
      have hpg : ∀ k, pool[k]? = (r :: it)[k + if b then 1 else 0]? := by
        intro k; rw [hp]; cases b <;> simp
      constructor
      · intro h
        obtain ⟨l, l1, l2, l3⟩ := ih1 fun i hi => by
          have := h (i + 1) (by simpa using hi)
          rw [hks, hpl] at this; omega
        refine ⟨vs ++ l, ?_, by simp [e2, l2], ?_⟩
        · rw [hun, l1]; rfl
        · intro i g' hg m hm
          cases i with
          | zero =>
            obtain rfl : g = g' := by simpa using hg
            obtain ⟨v, h1, h2⟩ := e3 m hm
            exact ⟨v, by simp [h1], by rw [hk0]; exact h2⟩
          | succ i =>
            obtain ⟨v, h1, h2⟩ := l3 i g' (by simpa using hg) m hm
            exact ⟨v, by simp [h1], by rw [hks, ← hpg]; exact h2⟩
      · rintro ⟨i, hi, h⟩
        cases i with
        | zero => rw [hk0] at h; simp at h
        | succ i =>
          rw [hun, ih2 ⟨i, by simpa using hi, by rw [hks, hpl] at h; omega⟩]
          rfl
    intro it rr next hrr hB
    cases next with
    | false =>
      obtain ⟨r, rfl⟩ := Option.isSome_iff_exists.mp (hrr rfl)
      exact step r it hB
    | true =>
      cases it with
      | nil =>
        refine ⟨fun h => absurd (h 0 (by simp)) (by simp), fun _ => rfl⟩
      | cons r it => exact step r it hB

end

/-! ### C33 -/

variable [Zero K] [One K] [Mul K]

/-- C33. One rate, several moments: conserved moments get 0 (the rate itself when they are not to be conserved), shear
moments the rate, all others 1; the dictionary lists the moments in the given order. -/
theorem C33_one_rate (c : Classify M) (ω : K) (nested : List (List M)) (conserved : Bool)
    (hn : nested.flatten.Nodup) (hl : nested.flatten.length ≠ 1) :
    relaxationInfo c (.list [ω]) nested conserved = .ok (nested.flatten.map fun m => (m,
      match Spec.kind c conserved m with
      | .conserved => 0
      | .shear => ω
      | _ => 1)) := by
  have h1 : (nested.flatten.map fun m => (m, singleRate c conserved ω m)) = nested.flatten.map fun m => (m,
      match Spec.kind c conserved m with
      | .conserved => 0
      | .shear => ω
      | _ => 1) := by
    refine List.map_congr_left fun m _ => ?_
    congr 1
    unfold singleRate Spec.kind
    cases conserved <;> by_cases h1 : c.order m ≤ 1 <;> cases h2 : c.shear m <;> cases h3 : c.bulk m <;> simp [h1]
  have h2 : dictOf (nested.flatten.map fun m => (m, singleRate c conserved ω m)) =
      nested.flatten.map fun m => (m, singleRate c conserved ω m) :=
    dictOf_nodup _ (by rw [List.map_map]; simpa [Function.comp_def] using hn)
  simp only [relaxationInfo, rateDict, List.length_singleton, if_neg (Ne.symm hl), if_true, bind, Except.bind]
  rw [h2, h1]

/-- C33. As many rates as moments: used in order. -/
theorem C33_all_rates (c : Classify M) (rates : List K) (nested : List (List M)) (conserved : Bool)
    (hn : nested.flatten.Nodup) (hl : rates.length = nested.flatten.length) (hl1 : rates.length ≠ 1) :
    relaxationInfo c (.list rates) nested conserved = .ok (List.zip nested.flatten rates) := by
  have h2 : dictOf (List.zip nested.flatten rates) = List.zip nested.flatten rates :=
    dictOf_nodup _ (by rw [mem_zip_flatten hl]; exact hn)
  match rates, hl, hl1, h2 with
  | [], hl, _, h2 => simp only [relaxationInfo, rateDict, List.nil_append, if_pos hl, bind, Except.bind, h2]
  | [_], _, hl1, _ => simp at hl1
  | _ :: _ :: _, hl, _, h2 => simp only [relaxationInfo, rateDict, List.nil_append, if_pos hl, bind, Except.bind, h2]

/-- C33. A single moment with a single rate gets that rate. -/
theorem C33_single (c : Classify M) (ω : K) (m : M) (conserved : Bool) :
    relaxationInfo c (.list [ω]) [[m]] conserved = .ok [(m, ω)] := by
  simp [relaxationInfo, rateDict, dictOf, bind, Except.bind]

omit [DecidableEq M] in
theorem kind_shear (c : Classify M) (conserved : Bool) (m : M) (h : Spec.kind c conserved m = .shear) :
    c.shear m = true ∨ (conserved = false ∧ c.order m ≤ 1) := by
  unfold Spec.kind at h
  by_cases h1 : c.order m ≤ 1 <;> cases h2 : c.shear m <;> cases h3 : c.bulk m <;> cases conserved <;>
    first | exact Or.inl rfl | exact Or.inr ⟨rfl, h1⟩ | (simp [h1, h2, h3] at h)

omit [DecidableEq M] in
theorem kind_bulk (c : Classify M) (conserved : Bool) (m : M) (h : Spec.kind c conserved m = .bulk) :
    c.bulk m = true := by
  unfold Spec.kind at h
  by_cases h1 : c.order m ≤ 1 <;> cases h2 : c.shear m <;> cases h3 : c.bulk m <;> cases conserved <;>
    first | rfl | (simp [h1, h2, h3] at h)

/-- conclusion of `C33_grouped_partial`, to name it inside the proof -/
private def GroupedGoal (c : Classify M) (rates : List K) (nested : List (List M)) (conserved : Bool) : Prop :=
    ((∀ i < nested.length, Spec.reserved c nested + Spec.groupsBefore c nested i < rates.length) →
      ∃ d, relaxationInfo c (.list rates) nested conserved = .ok d ∧ d.map Prod.fst = nested.flatten ∧
        ∀ (i : ℕ) (g : List M), nested[i]? = some g → ∀ m ∈ g, ∃ v, (m, v) ∈ d ∧
          Spec.groupedRate c conserved rates nested i m = some v) ∧
    ((∃ i < nested.length, rates.length ≤ Spec.reserved c nested + Spec.groupsBefore c nested i) →
      relaxationInfo c (.list rates) nested conserved = .error .valueError)

/-- C33. Any other number of rates: shear, bulk, then one per group that has a moment of another kind. All moments get
their rate exactly when there is a rate for every group (the first group, and a group following one with other moments,
draws a rate even if none of its moments needs it); otherwise `ValueError`. The hypothesis `hb` excludes lists
without shear moment whose low-order moments are not conserved. -/
theorem C33_grouped_partial (c : Classify M) (rates : List K) (nested : List (List M)) (conserved : Bool)
    (hn : nested.flatten.Nodup) (hl : rates.length ≠ nested.flatten.length) (hl1 : rates.length ≠ 1)
    (hb : conserved = false → (∃ m ∈ nested.flatten, c.shear m) ∨ ∀ m ∈ nested.flatten, 1 < c.order m) :
    ((∀ i < nested.length, Spec.reserved c nested + Spec.groupsBefore c nested i < rates.length) →
      ∃ d, relaxationInfo c (.list rates) nested conserved = .ok d ∧ d.map Prod.fst = nested.flatten ∧
        ∀ (i : ℕ) (g : List M), nested[i]? = some g → ∀ m ∈ g, ∃ v, (m, v) ∈ d ∧
          Spec.groupedRate c conserved rates nested i m = some v) ∧
    ((∃ i < nested.length, rates.length ≤ Spec.reserved c nested + Spec.groupsBefore c nested i) →
      relaxationInfo c (.list rates) nested conserved = .error .valueError) := by
  show GroupedGoal c rates nested conserved
  have hun : relaxationInfo c (.list rates) nested conserved =
      (do let l ← fallback c conserved rates nested; Except.ok (dictOf l)) := by
    simp only [relaxationInfo, rateDict, if_neg hl, if_neg hl1]
    cases fallback c conserved rates nested <;> rfl
  have hfalse : ∀ p : M → Bool, nested.flatten.any p = false ↔ ¬ ∃ m ∈ nested.flatten, p m := by
    intro p
    rw [List.any_eq_false]
    constructor
    · rintro h ⟨m, hm, hp⟩; exact h m hm hp
    · intro h m hm hp; exact h ⟨m, hm, hp⟩
  -- unify the four cases
  have core : ∀ (shear bulk : Option K) (it : List K),
      fallback c conserved rates nested = fallbackLoop c conserved shear bulk nested it none true →
      Bound c conserved shear bulk nested.flatten →
      (∀ i, it[i]? = rates[Spec.reserved c nested + i]?) → it.length + Spec.reserved c nested = rates.length →
      (∀ m ∈ nested.flatten, Spec.kind c conserved m = .shear → shear = rates[0]?) →
      (∀ m ∈ nested.flatten, Spec.kind c conserved m = .bulk →
        bulk = rates[if ∃ m ∈ nested.flatten, c.shear m then 1 else 0]?) →
      GroupedGoal c rates nested conserved := by
    intro shear bulk it hf hB hit hlen hs hbk
    obtain ⟨a, b⟩ := fallbackLoop_spec c conserved shear bulk nested it none true (by simp) hB
    simp only [if_true] at a b
    constructor
    · intro h
      obtain ⟨l, l1, l2, l3⟩ := a fun i hi => by have := h i hi; omega
      refine ⟨l, ?_, l2, ?_⟩
      · rw [hun, hf, l1]
        show Except.ok (dictOf l) = _
        rw [dictOf_nodup l (by rw [l2]; exact hn)]
      · intro i g hg m hm
        obtain ⟨v, h1, h2⟩ := l3 i g hg m hm
        have hmem : m ∈ nested.flatten := List.mem_flatten.mpr ⟨g, List.mem_of_getElem? hg, hm⟩
        refine ⟨v, h1, ?_⟩
        rw [← h2]
        unfold Spec.groupedRate loopRate
        cases hk : Spec.kind c conserved m with
        | conserved => rfl
        | shear => exact (hs m hmem hk).symm
        | bulk => exact (hbk m hmem hk).symm
        | other => exact (hit _).symm
    · rintro ⟨i, hi, h⟩
      rw [hun, hf, b ⟨i, hi, by omega⟩]
      rfl
  have kshear := fun m => kind_shear c conserved m
  have kbulk := fun m => kind_bulk c conserved m
  have noshear : ¬ (∃ m ∈ nested.flatten, c.shear m = true) → ∀ m ∈ nested.flatten, Spec.kind c conserved m ≠ .shear := by
    intro hno m hm hk
    rcases kshear m hk with h | ⟨hc, ho⟩
    · exact hno ⟨m, hm, h⟩
    · rcases hb hc with h | h
      · exact hno h
      · have := h m hm; omega
  have nobulk : ¬ (∃ m ∈ nested.flatten, c.bulk m = true) → ∀ m ∈ nested.flatten, Spec.kind c conserved m ≠ .bulk :=
    fun hno m hm hk => hno ⟨m, hm, kbulk m hk⟩
  -- too few rates for shear and bulk themselves
  have early : fallback c conserved rates nested = .error .valueError → nested ≠ [] →
      rates.length < Spec.reserved c nested → GroupedGoal c rates nested conserved := by
    intro hf hne hlt
    have hpos : 0 < nested.length := List.length_pos_iff.mpr hne
    constructor
    · intro h; have := h 0 hpos; omega
    · intro _; rw [hun, hf]; rfl
  by_cases hS : ∃ m ∈ nested.flatten, c.shear m = true
  · have hne : nested ≠ [] := by rintro rfl; simp at hS
    have eS : nested.flatten.any c.shear = true := by
      cases e : nested.flatten.any c.shear with
      | true => rfl
      | false => exact absurd hS ((hfalse _).mp e)
    by_cases hBk : ∃ m ∈ nested.flatten, c.bulk m = true
    · have eB : nested.flatten.any c.bulk = true := by
        cases e : nested.flatten.any c.bulk with
        | true => rfl
        | false => exact absurd hBk ((hfalse _).mp e)
      have hR : Spec.reserved c nested = 2 := by simp only [Spec.reserved, if_pos hS, if_pos hBk]
      match rates, hl, hl1, hun, @core, @early with
      | [], _, _, _, _, early =>
        exact early (by simp [fallback, eS, nextRate, bind, Except.bind]) hne (by rw [hR]; simp)
      | [r], _, hl1, _, _, _ => simp at hl1
      | r :: r' :: it, _, _, _, core, _ =>
        refine core (some r) (some r') it (by simp [fallback, eS, eB, nextRate, bind, Except.bind]) ?_ ?_ ?_ ?_ ?_
        · intro m _; simp
        · intro i; rw [hR, add_comm]; simp
        · rw [hR]; simp
        · simp
        · intro _ _ _; rw [if_pos hS]; simp
    · have eB : nested.flatten.any c.bulk = false := (hfalse _).mpr hBk
      have hR : Spec.reserved c nested = 1 := by simp only [Spec.reserved, if_pos hS, if_neg hBk]
      match rates, hl, hl1, hun, @core, @early with
      | [], _, _, _, _, early =>
        exact early (by simp [fallback, eS, nextRate, bind, Except.bind]) hne (by rw [hR]; simp)
      | r :: it, _, _, _, core, _ =>
        refine core (some r) none it (by simp [fallback, eS, eB, nextRate, bind, Except.bind]) ?_ ?_ ?_ ?_ ?_
        · intro m hm; exact ⟨fun _ => rfl, fun h => absurd h (nobulk hBk m hm)⟩
        · intro i; rw [hR, add_comm]; simp
        · rw [hR]; simp
        · simp
        · intro m hm h; exact absurd h (nobulk hBk m hm)
  · have eS : nested.flatten.any c.shear = false := (hfalse _).mpr hS
    by_cases hBk : ∃ m ∈ nested.flatten, c.bulk m = true
    · have hne : nested ≠ [] := by rintro rfl; simp at hBk
      have eB : nested.flatten.any c.bulk = true := by
        cases e : nested.flatten.any c.bulk with
        | true => rfl
        | false => exact absurd hBk ((hfalse _).mp e)
      have hR : Spec.reserved c nested = 1 := by simp only [Spec.reserved, if_neg hS, if_pos hBk]
      match rates, hl, hl1, hun, @core, @early with
      | [], _, _, _, _, early =>
        exact early (by simp [fallback, eS, eB, nextRate, bind, Except.bind]) hne (by rw [hR]; simp)
      | r :: it, _, _, _, core, _ =>
        refine core none (some r) it (by simp [fallback, eS, eB, nextRate, bind, Except.bind]) ?_ ?_ ?_ ?_ ?_
        · intro m hm; exact ⟨fun h => absurd h (noshear hS m hm), fun _ => rfl⟩
        · intro i; rw [hR, add_comm]; simp
        · rw [hR]; simp
        · intro m hm h; exact absurd h (noshear hS m hm)
        · intro _ _ _; rw [if_neg hS]; simp
    · have eB : nested.flatten.any c.bulk = false := (hfalse _).mpr hBk
      have hR : Spec.reserved c nested = 0 := by simp only [Spec.reserved, if_neg hS, if_neg hBk]
      refine core none none rates (by simp [fallback, eS, eB, bind, Except.bind]) ?_ ?_ ?_ ?_ ?_
      · intro m hm; exact ⟨fun h => absurd h (noshear hS m hm), fun h => absurd h (nobulk hBk m hm)⟩
      · intro i; rw [hR, zero_add]
      · rw [hR]; simp
      · intro m hm h; exact absurd h (noshear hS m hm)
      · intro m hm h; exact absurd h (nobulk hBk m hm)

theorem fallbackLoop_ok (c : Classify M) (conserved : Bool) (shear bulk : Option K) (gs : List (List M)) :
    ∀ (it : List K) (rr : Option K) (next : Bool) {l : List (M × K)},
      fallbackLoop c conserved shear bulk gs it rr next = .ok l →
      ∀ m ∈ gs.flatten, ∃ rr v, fallbackRate c conserved shear bulk rr m = .ok v := by
  induction gs with
  | nil => simp
  | cons g gs ih =>
    intro it rr next l h m hm
    have hmap : ∀ (rr : Option K) (g : List M) (vs : List (M × K)), (g.mapM fun m => do
          let v ← fallbackRate c conserved shear bulk rr m
          Except.ok (m, v)) = Except.ok vs → ∀ m ∈ g, ∃ v, fallbackRate c conserved shear bulk rr m = .ok v := by
      intro rr g
      induction g with
      | nil => simp
      | cons a g ihg =>
        intro vs hvs m hm
        rw [List.mapM_cons] at hvs
        simp only [bind, Except.bind] at hvs ihg
        cases hf : fallbackRate c conserved shear bulk rr a with
        | error e => rw [hf] at hvs; cases hvs
        | ok v =>
          rw [hf] at hvs
          simp only at hvs
          rcases List.mem_cons.mp hm with rfl | hm
          · exact ⟨v, hf⟩
          · split at hvs
            · cases hvs
            · rename_i ws hws
              exact ihg ws hws m hm
    have tail : ∀ (rr : Option K) (it : List K) (l : List (M × K)), (do
          let vs ← g.mapM fun m => do Except.ok (m, ← fallbackRate c conserved shear bulk rr m)
          let rest ← fallbackLoop c conserved shear bulk gs it rr (g.any (usesGroupRate c))
          Except.ok (vs ++ rest)) = Except.ok l → ∃ rr v, fallbackRate c conserved shear bulk rr m = .ok v := by
      intro rr it l h
      simp only [bind, Except.bind] at h hmap
      rw [List.flatten_cons] at hm
      split at h
      · cases h
      · rename_i vs hvs
        split at h
        · cases h
        · rename_i rest hrest
          rcases List.mem_append.mp hm with hm | hm
          · exact ⟨_, hmap _ g vs hvs m hm⟩
          · exact ih _ _ _ hrest m hm
    cases next with
    | false => exact tail rr it l h
    | true =>
      cases it with
      | nil => cases h
      | cons r it => exact tail (some r) it l h

/-- C33, disagreement: in the case that `C33_grouped_partial` excludes (no shear moment, moments of order 0 or 1 that are not
conserved) no list of rates is accepted. -/
theorem C33_unbound (c : Classify M) (rates : List K) (nested : List (List M))
    (hl : rates.length ≠ nested.flatten.length) (hl1 : rates.length ≠ 1)
    (hs : ∀ m ∈ nested.flatten, c.shear m = false) (ho : ∃ m ∈ nested.flatten, c.order m ≤ 1) (d : List (M × K)) :
    relaxationInfo c (.list rates) nested false ≠ .ok d := by
  intro h
  have hS : nested.flatten.any c.shear = false := by
    rw [List.any_eq_false]; intro m hm; simp [hs m hm]
  obtain ⟨m, hm, hmo⟩ := ho
  have hbad : ∀ bulk it l, fallbackLoop c false (none : Option K) bulk nested it none true ≠ .ok l := by
    intro bulk it l hl
    obtain ⟨rr, v, hv⟩ := fallbackLoop_ok c false none bulk nested it none true hl m hm
    simp [fallbackRate, hmo, bound] at hv
  simp only [relaxationInfo, rateDict, if_neg hl, if_neg hl1, fallback, hS, bind, Except.bind, Bool.false_eq_true,
    if_false] at h
  cases hB : nested.flatten.any c.bulk with
  | false =>
    simp only [hB, Bool.false_eq_true, if_false] at h
    split at h
    · cases h
    · rename_i x hx
      split at hx
      · cases hx
      · rename_i l hl; exact hbad _ _ _ hl
  | true =>
    cases rates with
    | nil => simp only [hB, if_true, nextRate] at h; cases h
    | cons r it =>
      simp only [hB, if_true, nextRate] at h
      split at h
      · cases h
      · rename_i x hx
        split at hx
        · cases hx
        · rename_i l hl; exact hbad _ _ _ hl

/-- C33. A function of the group: the first rates it returns are used in order; too few raise. -/
theorem C33_callable (c : Classify M) (f : List M → List K) (nested : List (List M)) (conserved : Bool)
    (hn : nested.flatten.Nodup) :
    ((∀ g ∈ nested, g.length ≤ (f g).length) →
      relaxationInfo c (.callable f) nested conserved = .ok (nested.map fun g => List.zip g (f g)).flatten) ∧
    ((∃ g ∈ nested, (f g).length < g.length) →
      relaxationInfo c (.callable f) nested conserved = .error .exception) := by
  have hz : ∀ (g : List M) (r : List K), zipRates g r =
      if g.length ≤ r.length then .ok (List.zip g r) else .error .exception := by
    intro g
    induction g with
    | nil => intro r; simp [zipRates]
    | cons m g ih =>
      intro r
      cases r with
      | nil => simp [zipRates]
      | cons a r =>
        rw [zipRates, ih]
        by_cases h : g.length ≤ r.length <;> simp [h, bind, Except.bind]
  constructor
  · intro h
    have e : (nested.mapM fun g => zipRates g (f g)) = .ok (nested.map fun g => List.zip g (f g)) := by
      clear hn
      induction nested with
      | nil => rfl
      | cons g gs ih =>
        rw [List.mapM_cons, hz, if_pos (h g (by simp)), ih fun g hg => h g (by simp [hg])]
        rfl
    have hd : dictOf (nested.map fun g => List.zip g (f g)).flatten = (nested.map fun g => List.zip g (f g)).flatten := by
      apply dictOf_nodup
      rw [List.map_flatten, List.map_map]
      have : (nested.map ((List.map Prod.fst) ∘ fun g => List.zip g (f g))) = nested := by
        conv_rhs => rw [← List.map_id nested]
        refine List.map_congr_left fun g hg => ?_
        exact List.map_fst_zip (h g hg)
      rw [this]; exact hn
    simp only [relaxationInfo, rateDict, e, bind, Except.bind, hd]
  · intro h
    have e : (nested.mapM fun g => zipRates g (f g)) = .error .exception := by
      clear hn
      induction nested with
      | nil => simp at h
      | cons g gs ih =>
        rw [List.mapM_cons, hz]
        by_cases hg : g.length ≤ (f g).length
        · rw [if_pos hg, ih]
          · rfl
          · obtain ⟨g', hg', h'⟩ := h
            rcases List.mem_cons.mp hg' with rfl | hg'
            · omega
            · exact ⟨g', hg', h'⟩
        · rw [if_neg hg]; rfl
    simp only [relaxationInfo, rateDict, e, bind, Except.bind]

/-- C33. The modifier multiplies every rate and changes nothing else. -/
theorem C33_modifier (c : Classify M) (rates : RatesArg M K) (nested : List (List M)) (conserved : Bool) (a : K) :
    relaxationInfo c rates nested conserved (some a) =
      (relaxationInfo c rates nested conserved).map fun d => d.map fun e => (e.1, e.2 * a) := by
  unfold relaxationInfo
  cases rateDict c rates nested conserved <;> rfl

/-- D2Q9 with the default cumulant groups: shear, bulk, third and fourth order -/
example : relaxationInfo (classifyPoly 2) (.list [(11 : ℚ), 12, 13, 14])
    ((cascadedMomentSets Tables.D2Q9_uk).getD []) =
    .ok [(1, 0), (.x, 0), (.y, 0), (.x * .y, 11), (.x ^ 2 - .y ^ 2, 11), (.x ^ 2 + .y ^ 2, 12), (.x ^ 2 * .y, 13),
      (.x * .y ^ 2, 13), (.x ^ 2 * .y ^ 2, 14)] := by decide +kernel

/-- three rates do not suffice there -/
example : relaxationInfo (classifyPoly 2) (.list [(11 : ℚ), 12, 13])
    ((cascadedMomentSets Tables.D2Q9_uk).getD []) = .error .valueError := by decide +kernel

/-- C33. For the literature moment sets of all predefined stencils with moments beyond second order, the number of rates
needed is the documented one: shear, bulk and one per remaining group. -/
theorem C33_cascaded_count : ∀ e ∈ Tables.predefined, ∀ g ∈ cascadedMomentSets e.2.2, 4 < g.length →
    ∀ (rates : List ℚ), rates.length ≠ 1 → rates.length ≠ g.flatten.length →
      ((∃ d, relaxationInfo (classifyPoly (e.2.2.headD []).length) (.list rates) g = .ok d) ↔
        g.length - 2 ≤ rates.length) := by
  have key : ∀ e ∈ Tables.predefined, (match cascadedMomentSets e.2.2 with
      | none => true
      | some g => decide (4 < g.length → g.flatten.Nodup ∧
        ∀ i : Fin g.length, Spec.groupsBefore (classifyPoly (e.2.2.headD []).length) g i = i.val - 4) &&
        decide (Spec.reserved (classifyPoly (e.2.2.headD []).length) g = 2)) = true := by decide +kernel
  intro e he g hg h4 rates h1 hn
  have h := key e he
  rw [Option.mem_def.1 hg] at h
  simp only [Bool.and_eq_true, decide_eq_true_eq] at h
  obtain ⟨hk, hr⟩ := h
  obtain ⟨hnd, hk⟩ := hk h4
  obtain ⟨a, b⟩ := C33_grouped_partial (classifyPoly (e.2.2.headD []).length) rates g true hnd hn h1 (by simp)
  constructor
  · rintro ⟨d, hd⟩
    by_contra hlt
    have := b ⟨g.length - 1, by omega, by
      rw [hr]
      have := hk ⟨g.length - 1, by omega⟩
      simp only at this
      rw [this]; omega⟩
    rw [this] at hd; cases hd
  · intro hle
    obtain ⟨d, hd, -⟩ := a fun i hi => by
      rw [hr]
      have := hk ⟨i, hi⟩
      simp only at this
      rw [this]; omega
    exact ⟨d, hd⟩

/-- C33, disagreement with the error text ("a relaxation rate for shear, bulk and one for each order"): D3Q7 has no
moments beyond the second order, yet the two rates for shear and bulk are rejected; with a third, unused, one they are
accepted. -/
theorem C33_D3Q7_third_rate :
    relaxationInfo (classifyPoly 3) (.list [(11 : ℚ), 12]) ((cascadedMomentSets Tables.D3Q7_walberla).getD []) =
      .error .valueError ∧
    relaxationInfo (classifyPoly 3) (.list [(11 : ℚ), 12, 13]) ((cascadedMomentSets Tables.D3Q7_walberla).getD []) =
      .ok [(1, 0), (.x, 0), (.y, 0), (.z, 0), (.x ^ 2 - .y ^ 2, 11), (.x ^ 2 - .z ^ 2, 11),
        (.x ^ 2 + .y ^ 2 + .z ^ 2, 12)] := by decide +kernel

/-- C33, disagreement: in one dimension `x²` is the bulk moment and there is no shear moment. A single rate is then not
used at all, and without conserved moments two rates raise `UnboundLocalError`. -/
theorem C33_one_dimension :
    relaxationInfo (classifyPoly 1) (.list [(11 : ℚ)]) [[1], [.x], [.x ^ 2]] = .ok [(1, 0), (.x, 0), (.x ^ 2, 1)] ∧
    relaxationInfo (classifyPoly 1) (.list [(11 : ℚ), 12]) [[1], [.x], [.x ^ 2]] false = .error .exception := by
  decide +kernel

/-! ### shear and bulk rate -/

section
variable [DecidableEq K]

/-- C33. `get_shear_relaxation_rate`: the common rate of the shear moments; an error if there are two different ones. -/
theorem C33_shear_rate (c : Classify M) (d : List (M × K)) (h : ∃ e ∈ d, c.shear e.1) :
    (∀ ω, shearRate c d = .ok ω ↔ ∀ e ∈ d, c.shear e.1 → e.2 = ω) ∧
    (shearRate c d = .error .valueError ↔ ∃ e ∈ d, ∃ e' ∈ d, c.shear e.1 ∧ c.shear e'.1 ∧ e.2 ≠ e'.2) := by
  have hmem : ∀ v, v ∈ ((d.filter fun e => c.shear e.1).map Prod.snd).dedup ↔ ∃ e ∈ d, c.shear e.1 ∧ e.2 = v := by
    intro v; simp only [List.mem_dedup, List.mem_map, List.mem_filter]
    constructor
    · rintro ⟨e, ⟨h1, h2⟩, h3⟩; exact ⟨e, h1, h2, h3⟩
    · rintro ⟨e, h1, h2, h3⟩; exact ⟨e, ⟨h1, h2⟩, h3⟩
  have hnd := List.nodup_dedup ((d.filter fun e => c.shear e.1).map Prod.snd)
  unfold shearRate
  obtain ⟨e0, he0, hs0⟩ := h
  split
  · rename_i v hv
    rw [hv] at hmem hnd
    simp only [List.mem_singleton] at hmem
    have hall : ∀ e ∈ d, c.shear e.1 → e.2 = v := fun e he hs => (hmem e.2).mpr ⟨e, he, hs, rfl⟩
    refine ⟨fun ω => ?_, ?_⟩
    · constructor
      · intro h; cases h; exact hall
      · intro h; rw [← h e0 he0 hs0, hall e0 he0 hs0]
    · constructor
      · intro h; cases h
      · rintro ⟨e, he, e', he', h1, h2, h3⟩
        exact absurd ((hall e he h1).trans (hall e' he' h2).symm) h3
  · rename_i a b l hv
    rw [hv] at hmem hnd
    obtain ⟨e, he, hs, rfl⟩ := (hmem a).mp (by simp)
    obtain ⟨e', he', hs', rfl⟩ := (hmem b).mp (by simp)
    have hne : e.2 ≠ e'.2 := by
      intro h; simp [h] at hnd
    refine ⟨fun ω => ?_, ?_⟩
    · constructor
      · intro h; cases h
      · intro h; exact absurd ((h e he hs).trans (h e' he' hs').symm) hne
    · exact ⟨fun _ => ⟨e, he, e', he', hs, hs', hne⟩, fun _ => rfl⟩
  · rename_i hv
    rw [hv] at hmem
    exact absurd ((hmem e0.2).mpr ⟨e0, he0, hs0, rfl⟩) (by simp)

/-- C33. The dictionary made from one rate, or from a list of grouped rates, is read back as that shear rate: the first
rate of the list determines the viscosity of the method. -/
theorem C33_shear_rate_is_first (c : Classify M) (hc : ∀ m, c.shear m → 1 < c.order m) (ω : K) (rs : List K)
    (nested : List (List M)) (conserved : Bool) (hn : nested.flatten.Nodup)
    (hl : (ω :: rs).length ≠ nested.flatten.length) (hs : ∃ m ∈ nested.flatten, c.shear m) {d : List (M × K)}
    (h : relaxationInfo c (.list (ω :: rs)) nested conserved = .ok d) : shearRate c d = .ok ω := by
  have hkind : ∀ m, c.shear m → Spec.kind c conserved m = .shear := by
    intro m hm
    have := hc m hm
    simp [Spec.kind, hm, not_le.mpr this]
  by_cases hr : rs = []
  · subst hr
    have h1 := C33_one_rate c ω nested conserved hn (by simpa using hl.symm)
    rw [h1] at h
    obtain rfl := Except.ok.inj h
    obtain ⟨m, hm, hms⟩ := hs
    refine ((C33_shear_rate c _ ⟨_, List.mem_map_of_mem hm, hms⟩).1 ω).mpr ?_
    intro e he hse
    obtain ⟨m', hm', rfl⟩ := List.mem_map.mp he
    simp only [hkind m' hse]
  · have hl1 : (ω :: rs).length ≠ 1 := by simpa using hr
    obtain ⟨a, b⟩ := C33_grouped_partial c (ω :: rs) nested conserved hn hl hl1 (fun _ => Or.inl hs)
    by_cases hok : ∀ i < nested.length, Spec.reserved c nested + Spec.groupsBefore c nested i < (ω :: rs).length
    · obtain ⟨d', h1, h2, h3⟩ := a hok
      rw [h1] at h
      obtain rfl := Except.ok.inj h
      have hrate : ∀ m, m ∈ nested.flatten → c.shear m → (m, ω) ∈ d' := by
        intro m hm hms
        obtain ⟨g, hg, hmg⟩ := List.mem_flatten.mp hm
        obtain ⟨i, hi⟩ := List.mem_iff_getElem?.mp hg
        obtain ⟨v, hv, hv'⟩ := h3 i g hi m hmg
        rw [Spec.groupedRate, hkind m hms] at hv'
        obtain rfl : ω = v := by simpa using hv'
        exact hv
      obtain ⟨m, hm, hms⟩ := hs
      refine ((C33_shear_rate c _ ⟨_, hrate m hm hms, hms⟩).1 ω).mpr ?_
      intro e he hse
      have hmem : e.1 ∈ nested.flatten := by rw [← h2]; exact List.mem_map_of_mem he
      have h4 := hrate e.1 hmem hse
      have hnd : (d'.map Prod.fst).Nodup := by rw [h2]; exact hn
      exact congrArg Prod.snd (List.inj_on_of_nodup_map hnd he h4 rfl)
    · push Not at hok
      rw [b hok] at h; cases h

/-- C33. `get_bulk_relaxation_rate`: the rate of the bulk moment if there is exactly one, otherwise of the first; without a
bulk moment the shear rate. -/
theorem C33_bulk_rate (c : Classify M) (d : List (M × K)) :
    (∀ e ∈ d, (∀ e' ∈ d, c.bulk e'.1 → e'.2 = e.2) → c.bulk e.1 → bulkRate c d = .ok e.2) ∧
    ((∀ e ∈ d, c.bulk e.1 = false) → bulkRate c d = shearRate c d) := by
  constructor
  · intro e he hall hb
    unfold bulkRate
    cases hf : d.find? fun e => c.bulk e.1 with
    | some e' =>
      show Except.ok e'.2 = _
      have h1 := List.find?_some hf
      rw [hall e' (List.mem_of_find?_eq_some hf) h1]
    | none =>
      rw [List.find?_eq_none] at hf
      exact absurd hb (by simpa using hf e he)
  · intro h
    have : (d.find? fun e => c.bulk e.1) = none := by
      rw [List.find?_eq_none]; intro e he; simp [h e he]
    simp only [bulkRate, this]

example : shearRate (classifyPoly 2) [(1, 0), (.x, 0), (.y, 0), (.x * .y, 11), (.x ^ 2 - .y ^ 2, (11 : ℚ)),
    (.x ^ 2 + .y ^ 2, 12)] = .ok 11 ∧ bulkRate (classifyPoly 2) [(.x * .y, 11), (.x ^ 2 + .y ^ 2, (12 : ℚ))] = .ok 12 ∧
    shearRate (classifyPoly 2) [(.x * .y, 11), (.x ^ 2 - .y ^ 2, (12 : ℚ))] = .error .valueError := by decide +kernel

end

/-! ### `get_order` -/

theorem leadingMonomial_mem {R : Type} (p : MPoly R) (hp : p ≠ []) (hne : ∀ t ∈ p, t.2 ≠ []) :
    ∃ t ∈ p, leadingMonomial p = t.2 := by
  have key : ∀ (l : List (List ℕ)) (a : List ℕ), l.foldl (fun a b => if lexLt a b then b else a) a = a ∨
      l.foldl (fun a b => if lexLt a b then b else a) a ∈ l := by
    intro l
    induction l with
    | nil => intro a; simp
    | cons b l ih =>
      intro a
      rw [List.foldl_cons]
      rcases ih (if lexLt a b then b else a) with h | h
      · rw [h]
        split
        · right; simp
        · left; rfl
      · right; simp [h]
  cases p with
  | nil => simp at hp
  | cons t p =>
    have ht : lexLt [] t.2 = true := by
      have := hne t (by simp)
      match h : t.2 with
      | [] => exact absurd h this
      | _ :: _ => rfl
    have : leadingMonomial (t :: p) = (p.map Prod.snd).foldl (fun a b => if lexLt a b then b else a) t.2 := by
      simp [leadingMonomial, ht]
    rw [this]
    rcases key (p.map Prod.snd) t.2 with h | h
    · exact ⟨t, by simp, h⟩
    · obtain ⟨s, hs, hs'⟩ := List.mem_map.mp h
      exact ⟨s, by simp [hs], hs'.symm⟩

theorem lexLt_iff : ∀ a b : List ℕ, lexLt a b = true ↔ a < b
  | [], [] => by simp [lexLt]
  | [], _ :: _ => by simp [lexLt]
  | _ :: _, [] => by simp [lexLt]
  | a :: l, b :: m => by
    simp only [lexLt, Bool.or_eq_true, decide_eq_true_eq, Bool.and_eq_true, beq_iff_eq, lexLt_iff l m,
      List.cons_lt_cons_iff]

/-- C33. The monomial whose degree `get_order` reports is the lexicographically greatest one of the polynomial. -/
theorem C33_order_leading {R : Type} (p : MPoly R) (hp : p ≠ []) (hne : ∀ t ∈ p, t.2 ≠ []) :
    ∃ t ∈ p, getOrder p = t.2.sum ∧ ∀ s ∈ p, s.2 ≤ t.2 := by
  obtain ⟨t, ht, h⟩ := leadingMonomial_mem p hp hne
  refine ⟨t, ht, by rw [getOrder, h], fun s hs => ?_⟩
  rw [← h]
  have key : ∀ (l : List (List ℕ)) (a : List ℕ), a ≤ l.foldl (fun a b => if lexLt a b then b else a) a ∧
      ∀ b ∈ l, b ≤ l.foldl (fun a b => if lexLt a b then b else a) a := by
    intro l
    induction l with
    | nil => intro a; simp
    | cons b l ih =>
      intro a
      rw [List.foldl_cons]
      obtain ⟨h1, h2⟩ := ih (if lexLt a b then b else a)
      have ha : a ≤ (if lexLt a b then b else a) ∧ b ≤ (if lexLt a b then b else a) := by
        by_cases hl : lexLt a b = true
        · rw [if_pos hl]; exact ⟨le_of_lt ((lexLt_iff a b).1 hl), le_rfl⟩
        · rw [if_neg hl]; exact ⟨le_rfl, not_lt.1 fun h => hl ((lexLt_iff a b).2 h)⟩
      refine ⟨ha.1.trans h1, fun x hx => ?_⟩
      rcases List.mem_cons.1 hx with rfl | hx
      · exact ha.2.trans h1
      · exact h2 x hx
  exact (key _ []).2 s.2 (List.mem_map.2 ⟨s, hs, rfl⟩)

/-- `xy + x² + y³`: the monomial `x²` decides, the order is 2 -/
example : getOrder (PExpr.x * PExpr.y + PExpr.x ^ 2 + PExpr.y ^ 3).expand = 2 ∧
    getOrder (PExpr.x ^ 2 * PExpr.y + PExpr.x ^ 2).expand = 3 := by decide +kernel

/-- C33, partial. `get_order` is the degree of homogeneous polynomials (in particular of monomials), and never more than
the degree. That it is the degree of every polynomial, as documented, is false: `C33_order_not_degree`. -/
theorem C33_order_partial {R : Type} (p : MPoly R) (hp : p ≠ []) (hne : ∀ t ∈ p, t.2 ≠ []) :
    (∀ n, (∀ t ∈ p, t.2.sum = n) → getOrder p = n) ∧ ∀ n, (∀ t ∈ p, t.2.sum ≤ n) → getOrder p ≤ n := by
  obtain ⟨t, ht, h⟩ := leadingMonomial_mem p hp hne
  exact ⟨fun n hn => by rw [getOrder, h, hn t ht], fun n hn => by rw [getOrder, h]; exact hn t ht⟩

/-- C33, disagreement with the documentation of `get_order`: the leading monomial is taken in lexicographic order, so
`x + y²` has order 1. With one rate the moment is then treated as conserved although it is a shear moment. -/
theorem C33_order_not_degree :
    getOrder (PExpr.x + PExpr.y ^ 2).expand = 1 ∧ (classifyPoly 2).shear (.x + .y ^ 2) = true ∧
    relaxationInfo (classifyPoly 2) (.list [(11 : ℚ)]) [[.x + .y ^ 2], [.x * .y]] =
      .ok [(.x + .y ^ 2, 0), (.x * .y, 11)] := by decide +kernel

end Lbm
