/-
Property theorems C13, C14: predefined velocity sets, construction, equality and hashing of stencils.
-/
import Verif.StencilCtor
import Verif.Props.Streaming
import Mathlib.Data.List.Dedup
import Mathlib.Data.List.Perm.Subperm

namespace Lbm

/-! ### C13 -/

namespace Spec

/-- The reverse of a velocity. -/
def reverse (v : List Int) : List Int := v.map fun e => -e

/-- Number of non-zero components. -/
def nonzeros (v : List Int) : ℕ := (v.filter fun e => e ≠ 0).length

/-- All vectors of length `d` with entries -1, 0, 1. -/
def unitBox : ℕ → List (List Int)
  | 0 => [[]]
  | d + 1 => [-1, 0, 1].flatMap fun e => (unitBox d).map fun v => e :: v

/-- The textbook velocity sets: dimension, advertised number of velocities, and for the nearest-neighbour sets the
admissible numbers of non-zero components. -/
def textbookSets : List (String × ℕ × ℕ × Option (List ℕ)) :=
  [("D2Q9", 2, 9, some [0, 1, 2]), ("D2V17", 2, 17, none), ("D2V37", 2, 37, none), ("D3Q7", 3, 7, some [0, 1]),
   ("D3Q15", 3, 15, some [0, 1, 3]), ("D3Q19", 3, 19, some [0, 1, 2]), ("D3Q27", 3, 27, some [0, 1, 2, 3])]

end Spec

/-- Everything C13 says about one table, in decidable form. -/
def tableOk (name : String) (l : List (List Int)) : Bool :=
  Spec.textbookSets.any fun s => s.1 == name && l.length == s.2.2.1 && l.all (fun v => v.length == s.2.1) &&
    decide l.Nodup && l.contains (List.replicate s.2.1 0) && l.all (fun v => l.contains (Spec.reverse v)) &&
    (match s.2.2.2 with
      | some ks => (Spec.unitBox s.2.1).all fun v => l.contains v == ks.contains (Spec.nonzeros v)
      | none => true)

/-- C13: each predefined velocity set has the advertised dimension and number of pairwise different velocities,
contains the rest velocity and all reverses; the nearest-neighbour ones are exactly the textbook sets (all vectors
with entries in {-1, 0, 1} and the right numbers of non-zero components), in every ordering. -/
theorem C13_predefined_sets : ∀ e ∈ Tables.predefined, ∃ s ∈ Spec.textbookSets, s.1 = e.1 ∧
    e.2.2.length = s.2.2.1 ∧ (∀ v ∈ e.2.2, v.length = s.2.1) ∧ e.2.2.Nodup ∧ List.replicate s.2.1 0 ∈ e.2.2 ∧
    (∀ v ∈ e.2.2, Spec.reverse v ∈ e.2.2) ∧
    ∀ ks, s.2.2.2 = some ks → ∀ v ∈ Spec.unitBox s.2.1, v ∈ e.2.2 ↔ Spec.nonzeros v ∈ ks := by
  have key : ∀ e ∈ Tables.predefined, tableOk e.1 e.2.2 = true := by decide +kernel
  intro e he
  have h := key e he
  unfold tableOk at h
  rw [List.any_eq_true] at h
  obtain ⟨s, hs, h⟩ := h
  simp only [Bool.and_eq_true, beq_iff_eq, List.all_eq_true, decide_eq_true_eq, List.contains_iff_mem] at h
  obtain ⟨⟨⟨⟨⟨⟨h1, h2⟩, h3⟩, h4⟩, h5⟩, h6⟩, h7⟩ := h
  refine ⟨s, hs, h1, h2, h3, h4, h5, h6, ?_⟩
  intro ks hk v hv
  rw [hk] at h7
  simp only [List.all_eq_true, beq_iff_eq] at h7
  have := h7 v hv
  rw [← List.contains_iff_mem, ← List.contains_iff_mem, this]

/-- C13: all orderings of one stencil are permutations of each other. -/
theorem C13_orderings_agree : ∀ e ∈ Tables.predefined, ∀ e' ∈ Tables.predefined, e.1 = e'.1 → e.2.2.Perm e'.2.2 := by
  decide +kernel

/-- C13: as stencils (see `predefinedStencil`), all tables are duplicate free and closed under reversal. -/
theorem C13_predefined_valid : ∀ e ∈ Tables.predefined, ∃ D, ∃ S : Stencil D, predefinedStencil e.2.2 = some ⟨D, S⟩ ∧
    S.Valid ∧ S.InvClosed ∧ ∃ i, S.c i = 0 := by
  have key : ∀ e ∈ Tables.predefined, (match predefinedStencil e.2.2 with
      | some ⟨_, S⟩ => decide (S.Valid ∧ S.InvClosed ∧ ∃ i, S.c i = 0)
      | none => false) = true := by decide +kernel
  intro e he
  have := key e he
  split at this
  · rename_i D S h
    exact ⟨D, S, h, by simpa using of_decide_eq_true this⟩
  · cases this

/-- C13: in every duplicate-free velocity set closed under reversal, `inverse_index` of each member's velocity
exists, points to the reverse velocity, and applying it twice gives the member back. -/
theorem C13_inverse_index_involution {D : ℕ} (S : Stencil D) (hv : S.Valid) (hc : S.InvClosed) (i : Fin S.Q) :
    ∃ j, S.inverseIndex (S.c i) = some j ∧ S.c j = -S.c i ∧ S.inverseIndex (S.c j) = some i := by
  obtain ⟨j, hj⟩ := hc i
  refine ⟨j, (Stencil.index_eq_some hv).2 hj, hj, (Stencil.index_eq_some hv).2 ?_⟩
  rw [hj, neg_neg]

/-- C13: `index` finds exactly the members. -/
theorem C13_index_finds_members {D : ℕ} (S : Stencil D) (hv : S.Valid) (d : Vec D) :
    (∀ i, S.index d = some i ↔ S.c i = d) ∧ (S.index d = none ↔ ∀ i, S.c i ≠ d) :=
  ⟨fun _ => Stencil.index_eq_some hv, Stencil.index_eq_none⟩

example : exStencil.Valid ∧ exStencil.InvClosed ∧ exStencil.inverseIndex ![1, -1] = some ⟨5, by decide⟩ := by
  refine ⟨?_, ?_, ?_⟩ <;> decide +kernel

/-! ### C14 -/

theorem lookup_mem {s ord : String} {l : List (List Int)} (h : Tables.lookup s ord = some l) :
    (s, ord, l) ∈ Tables.predefined := by
  unfold Tables.lookup at h
  obtain ⟨⟨a, b, c⟩, h1, h2⟩ := Option.map_eq_some_iff.1 h
  have hm := List.mem_of_find?_eq_some h1
  have hp := List.find?_some h1
  simp only [decide_eq_true_eq] at hp
  obtain ⟨rfl, rfl⟩ := hp
  cases h2
  exact hm

theorem mem_lookup {s ord : String} {l : List (List Int)} (h : (s, ord, l) ∈ Tables.predefined) :
    Tables.lookup s ord = some l := by
  have key : ∀ e ∈ Tables.predefined, Tables.lookup e.1 e.2.1 = some e.2.2 := by decide +kernel
  exact key _ h

theorem lookup_ne_nil (s ord : String) : Tables.lookup s ord ≠ some [] := by
  intro h
  obtain ⟨_, -, -, -, -, -, h, -⟩ := C13_predefined_sets _ (lookup_mem h)
  cases h

theorem dedup_length_lt {l : List (List Int)} : l.dedup.length < l.length ↔ ¬ l.Nodup := by
  constructor
  · intro h hn; rw [hn.dedup] at h; omega
  · intro h
    by_contra hc
    have := (List.dedup_sublist l).eq_of_length_le (by omega)
    exact h (this ▸ List.nodup_dedup l)

/-- The checks, in closed form. -/
theorem checkStencil_spec (l : List (List Int)) (ord : Option String) :
    (∀ o, checkStencil l ord = .ok o ↔
      (l ≠ [] ∧ (∀ a ∈ l, ∀ b ∈ l, a.length = b.length) ∧ l.Nodup) ∧ o = ⟨l, ord⟩) ∧
    (∀ e, checkStencil l ord = .error e → e = .valueError ∨ (e = .indexError ∧ l = [])) := by
  cases l with
  | nil => simp [checkStencil, isValidStencil]
  | cons e l =>
    have hlen : ((e :: l).all fun d => d.length == e.length) = true ↔
        ∀ a ∈ e :: l, ∀ b ∈ e :: l, a.length = b.length := by
      simp only [List.all_eq_true, beq_iff_eq]
      constructor
      · intro h a ha b hb; rw [h a ha, h b hb]
      · intro h a ha; exact h a ha e (List.mem_cons_self ..)
    rw [← hlen]
    generalize hk : e :: l = k at *
    have hne : k ≠ [] := by rw [← hk]; simp
    have hv : isValidStencil k = .ok (k.all fun d => d.length == e.length) := by rw [← hk]; rfl
    unfold checkStencil
    rw [hv]
    cases k.all fun d => d.length == e.length with
    | false => simp
    | true =>
      by_cases h2 : k.Nodup
      · have := dedup_length_lt.not.2 (not_not.2 h2)
        simp only [if_neg this]
        refine ⟨fun o => ⟨fun h => ⟨⟨hne, trivial, h2⟩, (Except.ok.inj h).symm⟩, fun h => by rw [h.2]⟩, by simp⟩
      · simp only [if_pos (dedup_length_lt.2 h2)]
        simp [h2]

/-- C14: a tuple of tuples is accepted exactly if it is not empty, all entries have the same length, and no entry is
repeated; the object then has exactly these entries in this order, and no ordering tag. -/
theorem C14_accepts_exactly (l : List (List Int)) (ord : String) (o : StencilObj) :
    mkStencil (.entries l) ord = .ok o ↔
      (l ≠ [] ∧ (∀ a ∈ l, ∀ b ∈ l, a.length = b.length) ∧ l.Nodup) ∧ o = ⟨l, none⟩ :=
  (checkStencil_spec l none).1 o

/-- C14: whatever is rejected is rejected with a `ValueError`, except the empty tuple (`IndexError`). -/
theorem C14_error_kinds (a : StencilArg) (ord : String) (e : PyErr) (h : mkStencil a ord = .error e) :
    e = .valueError ∨ (e = .indexError ∧ a = .entries []) := by
  cases a with
  | entries l =>
    have := (checkStencil_spec l none).2 e h
    simpa using this
  | name s =>
    unfold mkStencil resolveStencil at h
    cases hl : Tables.lookup s ord with
    | none => simp only [hl] at h; cases h; exact Or.inl rfl
    | some l =>
      simp only [hl] at h
      have h' := (checkStencil_spec l (some ord)).2 e h
      rcases h' with h' | ⟨-, rfl⟩
      · exact Or.inl h'
      · exact absurd hl (lookup_ne_nil s ord)
  | enum s =>
    unfold mkStencil resolveStencil at h
    cases hl : Tables.lookup s ord with
    | none => simp only [hl] at h; cases h; exact Or.inl rfl
    | some l =>
      simp only [hl] at h
      have h' := (checkStencil_spec l (some ord)).2 e h
      rcases h' with h' | ⟨-, rfl⟩
      · exact Or.inl h'
      · exact absurd hl (lookup_ne_nil s ord)
  | other => cases h; exact Or.inl rfl

/-- C14: a predefined stencil is obtained exactly for the listed (name, ordering) pairs, by string or enum member. -/
theorem C14_by_name (s ord : String) (o : StencilObj) :
    (mkStencil (.name s) ord = .ok o ↔ ∃ l, (s, ord, l) ∈ Tables.predefined ∧ o = ⟨l, some ord⟩) ∧
    mkStencil (.enum s) ord = mkStencil (.name s) ord := by
  refine ⟨?_, rfl⟩
  unfold mkStencil resolveStencil
  constructor
  · intro h
    cases hl : Tables.lookup s ord with
    | none => simp only [hl] at h; cases h
    | some l =>
      simp only [hl] at h
      exact ⟨l, lookup_mem hl, (((checkStencil_spec l (some ord)).1 o).1 h).2⟩
  · rintro ⟨l, hm, rfl⟩
    simp only [mem_lookup hm]
    refine ((checkStencil_spec l (some ord)).1 _).2 ⟨?_, rfl⟩
    obtain ⟨t, -, -, h1, h2, h3, h4, -⟩ := C13_predefined_sets _ hm
    exact ⟨List.ne_nil_of_mem h4, fun a ha b hb => by rw [h2 a ha, h2 b hb], h3⟩

/-- C14: every accepted stencil, however constructed, has non-empty entries of one length without repetitions. -/
theorem C14_accepted_valid (a : StencilArg) (ord : String) (o : StencilObj) (h : mkStencil a ord = .ok o) :
    o.entries ≠ [] ∧ (∀ a ∈ o.entries, ∀ b ∈ o.entries, a.length = b.length) ∧ o.entries.Nodup := by
  have key : ∀ l t, checkStencil l t = .ok o → _ := fun l t h => ((checkStencil_spec l t).1 o).1 h
  unfold mkStencil at h
  cases hr : resolveStencil ord a with
  | error e => rw [hr] at h; cases h
  | ok p =>
    rw [hr] at h
    obtain ⟨h1, rfl⟩ := key _ _ h
    exact h1

/-- C14: between accepted stencils, equality means: same ordering tag, same velocities up to order (so it is an
equivalence relation). -/
theorem C14_eq_is_set_equality (a b : StencilObj) (ha : a.entries.Nodup) :
    a.eq b = true ↔ a.ordering = b.ordering ∧ a.entries.Perm b.entries := by
  unfold StencilObj.eq haveSameEntries
  simp only [Bool.and_eq_true, beq_iff_eq, List.all_eq_true, List.contains_iff_mem]
  refine and_congr_right fun _ => ⟨fun ⟨h1, h2⟩ => ?_, fun h => ⟨h.length_eq, fun x hx => h.mem_iff.1 hx⟩⟩
  exact (ha.subperm h2).perm_of_length_le (by omega)

/-- C14: for stencils made from the predefined tables, equal objects have equal entries in equal order, hence equal
hashes for any hash function on tuples.

Full claim: for all accepted stencils; false, see `C14_eq_hash_contract_violated`. -/
theorem C14_eq_implies_hash_eq_partial (h : List (List Int) → Int) (s t ord ord' : String) (a b : StencilObj)
    (ha : mkStencil (.name s) ord = .ok a) (hb : mkStencil (.name t) ord' = .ok b) (hab : a.eq b = true) :
    a.hash h = b.hash h := by
  obtain ⟨l, hl, rfl⟩ := ((C14_by_name s ord a).1).1 ha
  obtain ⟨l', hl', rfl⟩ := ((C14_by_name t ord' b).1).1 hb
  have hn := (C14_accepted_valid _ _ _ ha).2.2
  obtain ⟨h1, h2⟩ := (C14_eq_is_set_equality _ _ hn).1 hab
  have key : ∀ e ∈ Tables.predefined, ∀ e' ∈ Tables.predefined, e.2.1 = e'.2.1 → e.2.2.Perm e'.2.2 → e.2.2 = e'.2.2 := by
    decide +kernel
  have := key _ hl _ hl' (Option.some.inj h1) h2
  simp only at this
  unfold StencilObj.hash
  rw [show l = l' from this]

/-- C14 violated: stencils given as tuples ignore the order of the velocities in `==` but not in `hash`: two accepted
objects compare equal, yet every hash function that tells their entry tuples apart (python's does) gives them
different hashes. -/
theorem C14_eq_hash_contract_violated : ∃ a b : StencilObj,
    mkStencil (.entries [[0, 0], [1, 0], [-1, 0]]) "walberla" = .ok a ∧
    mkStencil (.entries [[0, 0], [-1, 0], [1, 0]]) "walberla" = .ok b ∧ a.eq b = true ∧
    ∀ h : List (List Int) → Int, h [[0, 0], [1, 0], [-1, 0]] ≠ h [[0, 0], [-1, 0], [1, 0]] → a.hash h ≠ b.hash h :=
  ⟨⟨[[0, 0], [1, 0], [-1, 0]], none⟩, ⟨[[0, 0], [-1, 0], [1, 0]], none⟩, by decide +kernel, by decide +kernel,
    by decide +kernel, fun _ h => h⟩

example : mkStencil (.name "D3Q19") "lehmann" = .ok ⟨Tables.D3Q19_lehmann, some "lehmann"⟩ ∧
    mkStencil (.entries [[0], [1], [1]]) "" = .error .valueError ∧
    mkStencil (.entries [[0], [1, 0]]) "" = .error .valueError ∧
    mkStencil (.name "D3Q7") "lehmann" = .error .valueError := by decide +kernel

end Lbm
