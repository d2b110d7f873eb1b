import Verif.SplitGroups
import Verif.Props.Streaming
import Mathlib.Tactic.Linarith

/-!
# C74: split groups of the inner loop
-/

namespace Lbm
namespace SplitGroups

variable {Sym : Type} [DecidableEq Sym]

/-! ### Which symbols are computed beforehand -/

theorem foldl_filter_mem (main : List (Sym × List Sym)) (nonCenter imp : List Sym) (s : Sym) :
    s ∈ main.foldl (fun imp e => if e.1 ∈ nonCenter then imp.filter fun s => s ∈ e.2 else imp) imp ↔
      s ∈ imp ∧ ∀ e ∈ main, e.1 ∈ nonCenter → s ∈ e.2 := by
  induction main generalizing imp with
  | nil => simp
  | cons a l ih =>
    rw [List.foldl_cons, ih]
    by_cases h : a.1 ∈ nonCenter
    · rw [if_pos h]
      simp only [List.mem_filter, decide_eq_true_eq, List.forall_mem_cons]
      exact ⟨fun ⟨⟨a1, a2⟩, a3⟩ => ⟨a1, fun _ => a2, a3⟩, fun ⟨a1, a2, a3⟩ => ⟨⟨a1, a2 h⟩, a3⟩⟩
    · rw [if_neg h]
      simp only [List.forall_mem_cons]
      exact ⟨fun ⟨a1, a3⟩ => ⟨a1, fun h' => absurd h' h, a3⟩, fun ⟨a1, _, a3⟩ => ⟨a1, a3⟩⟩

/-- The symbols computed in the first loop are the velocities and those subexpressions which need a population and are
used in the equations of all directions but the first; each is listed once. -/
theorem C74_precomputed (r : Rule Sym) (le : Sym → Sym → Bool) (s : Sym) :
    (s ∈ r.precomputed le ↔ s ∈ r.velocity ∨
      ((∃ e ∈ r.subexpressions, e.1 = s) ∧
        (∃ p ∈ r.pre, Relation.ReflTransGen (fun a b => ∃ e ∈ r.subexpressions ++ r.main, e.1 = a ∧ b ∈ e.2) s p) ∧
        ∀ e ∈ r.main, e.1 ∈ r.post.tail → s ∈ e.2)) ∧
    (r.precomputed le).Nodup := by
  constructor
  · show s ∈ r.precomputed le ↔ s ∈ r.velocity ∨ ((∃ e ∈ r.subexpressions, e.1 = s) ∧ r.UsesPdf s ∧
      ∀ e ∈ r.main, e.1 ∈ r.post.tail → s ∈ e.2)
    unfold Rule.precomputed
    simp only [List.mem_mergeSort, List.mem_dedup, List.mem_append]
    rw [foldl_filter_mem]
    simp only [List.mem_filter, List.mem_map, decide_eq_true_eq]
    constructor
    · rintro (⟨⟨⟨e, h1, h2⟩, h3⟩, h4⟩ | h)
      · exact Or.inr ⟨⟨e, h1, h2⟩, h3, h4⟩
      · exact Or.inl h
    · rintro (h | ⟨⟨e, h1, h2⟩, h3, h4⟩)
      · exact Or.inr h
      · exact Or.inl ⟨⟨⟨e, h1, h2⟩, h3⟩, h4⟩
  · unfold Rule.precomputed
    exact (List.mergeSort_perm _ _).nodup_iff.2 (List.nodup_dedup _)

/-! ### The direction groups -/

theorem neg_neg_dir (d : List ℤ) : neg (neg d) = d := by
  unfold neg
  rw [List.map_map]
  conv_rhs => rw [← List.map_id d]
  congr 1
  funext i
  simp

theorem neg_eq_self (d : List ℤ) : neg d = d ↔ d = List.replicate d.length 0 := by
  unfold neg
  induction d with
  | nil => simp
  | cons a l ih =>
    rw [List.map_cons, List.length_cons, List.replicate_succ]
    simp only [List.cons.injEq]
    rw [ih]
    constructor
    · rintro ⟨h1, h2⟩; exact ⟨by omega, h2⟩
    · rintro ⟨h1, h2⟩; exact ⟨by omega, h2⟩

/-- The first of each pair of opposite directions. -/
def Spec.reps (dirs : List (List ℤ × Sym)) : List (List ℤ × Sym) :=
  dirs.foldl (fun acc e => if neg e.1 = e.1 ∨ neg e.1 ∈ acc.map Prod.fst then acc else acc ++ [e]) []

theorem reps_snoc (dirs : List (List ℤ × Sym)) (e : List ℤ × Sym) :
    Spec.reps (dirs ++ [e]) =
      if neg e.1 = e.1 ∨ neg e.1 ∈ (Spec.reps dirs).map Prod.fst then Spec.reps dirs else Spec.reps dirs ++ [e] := by
  unfold Spec.reps
  rw [List.foldl_append]
  rfl

theorem reps_sub (dirs : List (List ℤ × Sym)) : ∀ e ∈ Spec.reps dirs, e ∈ dirs ∧ neg e.1 ≠ e.1 := by
  induction dirs using List.reverseRecOn with
  | nil => intro e h; simp [Spec.reps] at h
  | append_singleton l a ih =>
    intro e h
    rw [reps_snoc] at h
    split_ifs at h with h1
    · exact ⟨List.mem_append_left _ (ih e h).1, (ih e h).2⟩
    · rcases List.mem_append.1 h with h | h
      · exact ⟨List.mem_append_left _ (ih e h).1, (ih e h).2⟩
      · rw [List.mem_singleton] at h
        subst h
        exact ⟨by simp, fun h' => h1 (Or.inl h')⟩

theorem reps_total (dirs : List (List ℤ × Sym)) : ∀ e ∈ dirs, neg e.1 ≠ e.1 →
    e ∈ Spec.reps dirs ∨ neg e.1 ∈ (Spec.reps dirs).map Prod.fst := by
  induction dirs using List.reverseRecOn with
  | nil => intro e h; simp at h
  | append_singleton l a ih =>
    intro e h hne
    rw [reps_snoc]
    rcases List.mem_append.1 h with h | h
    · split_ifs with h1
      · exact ih e h hne
      · rcases ih e h hne with h2 | h2
        · exact Or.inl (List.mem_append_left _ h2)
        · right; rw [List.map_append]; exact List.mem_append_left _ h2
    · rw [List.mem_singleton] at h
      subst h
      split_ifs with h1
      · rcases h1 with h1 | h1
        · exact absurd h1 hne
        · exact Or.inr h1
      · left; simp

theorem reps_nodup (dirs : List (List ℤ × Sym)) (hn : (dirs.map Prod.fst).Nodup) :
    ((Spec.reps dirs).map Prod.fst).Nodup := by
  induction dirs using List.reverseRecOn with
  | nil => simp [Spec.reps]
  | append_singleton l a ih =>
    rw [List.map_append, List.map_singleton] at hn
    have hn' := List.nodup_append.1 hn
    rw [reps_snoc]
    split_ifs with h1
    · exact ih hn'.1
    · rw [List.map_append, List.map_singleton, List.nodup_append]
      refine ⟨ih hn'.1, by simp, ?_⟩
      intro d hd b hb
      obtain ⟨e, he, rfl⟩ := List.mem_map.1 hd
      exact hn'.2.2 e.1 (List.mem_map.2 ⟨e, (reps_sub l e he).1, rfl⟩) b hb

theorem reps_antipodal (dirs : List (List ℤ × Sym)) (hn : (dirs.map Prod.fst).Nodup) :
    ∀ e ∈ Spec.reps dirs, ∀ e' ∈ Spec.reps dirs, e'.1 ≠ neg e.1 := by
  induction dirs using List.reverseRecOn with
  | nil => intro e h; simp [Spec.reps] at h
  | append_singleton l a ih =>
    rw [List.map_append, List.map_singleton] at hn
    have hn' := List.nodup_append.1 hn
    intro e h e' h'
    rw [reps_snoc] at h h'
    split_ifs at h h' with h1
    · exact ih hn'.1 e h e' h'
    · rw [not_or] at h1
      rcases List.mem_append.1 h with hm | hm <;> rcases List.mem_append.1 h' with hm' | hm'
      · exact ih hn'.1 e hm e' hm'
      · rw [List.mem_singleton] at hm'
        subst hm'
        intro hc
        exact h1.2 (List.mem_map.2 ⟨e, hm, by rw [hc, neg_neg_dir]⟩)
      · rw [List.mem_singleton] at hm
        subst hm
        intro hc
        exact h1.2 (List.mem_map.2 ⟨e', hm', hc⟩)
      · rw [List.mem_singleton] at hm hm'
        subst hm; subst hm'
        exact fun hc => h1.1 hc.symm

theorem directionGroups_snoc (first : List Sym) (dirs : List (List ℤ × Sym)) (e : List ℤ × Sym) :
    directionGroups first (dirs ++ [e]) =
      if e.1 = List.replicate e.1.length 0 then
        ((directionGroups first dirs).1 ++ [e.2], (directionGroups first dirs).2)
      else ((directionGroups first dirs).1, addDirection (directionGroups first dirs).2 e.1 e.2) := by
  unfold directionGroups
  rw [List.foldl_append]
  rfl

/-- The dictionary in closed form. -/
theorem directionGroups_eq (first : List Sym) (dirs : List (List ℤ × Sym)) (hn : (dirs.map Prod.fst).Nodup) :
    directionGroups first dirs =
      (first ++ (dirs.filter fun e => neg e.1 = e.1).map Prod.snd,
        (Spec.reps dirs).map fun e =>
          (e.1, e.2 :: (dirs.filter fun e' => e'.1 = neg e.1).map Prod.snd)) := by
  induction dirs using List.reverseRecOn with
  | nil => simp [directionGroups, Spec.reps]
  | append_singleton l a ih =>
    have hnc := hn
    rw [List.map_append, List.map_singleton] at hn
    have hn' := List.nodup_append.1 hn
    have ha : ∀ e ∈ l, e.1 ≠ a.1 := fun e he => hn'.2.2 e.1 (List.mem_map.2 ⟨e, he, rfl⟩) a.1 (by simp)
    rw [directionGroups_snoc, ih hn'.1, reps_snoc]
    by_cases hz : neg a.1 = a.1
    · rw [if_pos ((neg_eq_self a.1).1 hz), if_pos (Or.inl hz)]
      refine Prod.ext ?_ ?_
      · simp only [List.filter_append, List.map_append, List.append_assoc]
        simp [hz]
      · refine List.map_congr_left fun e he => ?_
        have hne : ¬ a.1 = neg e.1 := by
          intro hc
          have h2 : neg a.1 = e.1 := by rw [hc, neg_neg_dir]
          exact ha e (reps_sub l e he).1 (by rw [← h2, hz])
        simp [List.filter_append, hne]
    · rw [if_neg (fun h => hz ((neg_eq_self a.1).2 h))]
      have hkeys : ((Spec.reps l).map fun e =>
          (e.1, e.2 :: (l.filter fun e' => e'.1 = neg e.1).map Prod.snd)).map Prod.fst =
          (Spec.reps l).map Prod.fst := by rw [List.map_map]; rfl
      have hfst : first ++ (l.filter fun e => decide (neg e.1 = e.1)).map Prod.snd =
          first ++ ((l ++ [a]).filter fun e => decide (neg e.1 = e.1)).map Prod.snd := by
        simp [List.filter_append, hz]
      unfold addDirection
      simp only [hkeys]
      by_cases hk : neg a.1 ∈ (Spec.reps l).map Prod.fst
      · rw [if_pos hk, if_pos hk, if_pos (Or.inr hk)]
        refine Prod.ext hfst ?_
        simp only [List.map_map]
        refine List.map_congr_left fun e he => ?_
        simp only [Function.comp]
        by_cases hea : e.1 = neg a.1
        · have hae : a.1 = neg e.1 := by rw [hea, neg_neg_dir]
          rw [if_pos hea]
          simp only [List.filter_append, List.map_append]
          simp [hae]
        · have hae : ¬ a.1 = neg e.1 := fun h => hea (by rw [h, neg_neg_dir])
          rw [if_neg hea]
          simp only [List.filter_append, List.map_append]
          simp [hae]
      · have hk2 : ¬ a.1 ∈ (Spec.reps l).map Prod.fst := by
          intro h
          obtain ⟨e, he, h⟩ := List.mem_map.1 h
          exact ha e (reps_sub l e he).1 h
        rw [if_neg hk, if_neg hk2, if_neg (by rw [not_or]; exact ⟨hz, hk⟩)]
        refine Prod.ext hfst ?_
        simp only [List.map_append, List.map_singleton]
        congr 1
        · refine List.map_congr_left fun e he => ?_
          have hae : ¬ a.1 = neg e.1 := by
            intro h
            exact hk (List.mem_map.2 ⟨e, he, by rw [h, neg_neg_dir]⟩)
          simp [List.filter_append, hae]
        · have h0 : (l ++ [a]).filter (fun e' => decide (e'.1 = neg a.1)) = [] := by
            rw [List.filter_eq_nil_iff]
            intro e he
            simp only [decide_eq_true_eq]
            rcases List.mem_append.1 he with he | he
            · intro hc
              have hne : neg e.1 ≠ e.1 := by
                rw [hc, neg_neg_dir]; exact fun h => hz h.symm
              rcases reps_total l e he hne with h | h
              · exact hk (List.mem_map.2 ⟨e, h, hc⟩)
              · rw [hc, neg_neg_dir] at h
                exact hk2 h
            · rw [List.mem_singleton] at he
              subst he
              exact fun h => hz h.symm
          rw [h0]
          rfl

theorem directionGroups_pairs (first : List Sym) (dirs : List (List ℤ × Sym))
    (hn : (dirs.map Prod.fst).Nodup) (hinv : ∀ e ∈ dirs, neg e.1 ∈ dirs.map Prod.fst) :
    ∃ pairs : List ((List ℤ × Sym) × (List ℤ × Sym)),
      (directionGroups first dirs).1 = first ++ (dirs.filter fun e => neg e.1 = e.1).map Prod.snd ∧
      (directionGroups first dirs).2.map Prod.snd = pairs.map (fun p => [p.1.2, p.2.2]) ∧
      (∀ p ∈ pairs, p.1 ∈ dirs ∧ p.2 ∈ dirs ∧ p.2.1 = neg p.1.1 ∧ p.2.1 ≠ p.1.1) ∧
      (∀ e ∈ dirs, neg e.1 ≠ e.1 → ∃ p ∈ pairs, e = p.1 ∨ e = p.2) ∧
      (pairs.flatMap fun p => [p.1.1, p.2.1]).Nodup := by
  have hex : ∀ e ∈ dirs, ∃ e' ∈ dirs, e'.1 = neg e.1 ∧ dirs.filter (fun x => decide (x.1 = neg e.1)) = [e'] := by
    intro e he
    obtain ⟨e', he', h⟩ := List.mem_map.1 (hinv e he)
    refine ⟨e', he', h, ?_⟩
    have hnd : dirs.Nodup := hn.of_map
    have hall : ∀ x ∈ dirs.filter (fun x => decide (x.1 = neg e.1)), x = e' := by
      intro x hx
      simp only [List.mem_filter, decide_eq_true_eq] at hx
      exact List.inj_on_of_nodup_map hn hx.1 he' (by rw [hx.2, h])
    have hmem : e' ∈ dirs.filter (fun x => decide (x.1 = neg e.1)) := by
      simp only [List.mem_filter, decide_eq_true_eq]; exact ⟨he', h⟩
    have hnf := hnd.filter (fun x => decide (x.1 = neg e.1))
    have hrep := List.eq_replicate_iff.2 ⟨rfl, hall⟩
    have hlen : (dirs.filter (fun x => decide (x.1 = neg e.1))).length ≤ 1 := by
      rw [hrep] at hnf
      exact List.nodup_replicate.1 hnf
    have hpos : 0 < (dirs.filter (fun x => decide (x.1 = neg e.1))).length := List.length_pos_of_mem hmem
    rw [hrep, show (dirs.filter (fun x => decide (x.1 = neg e.1))).length = 1 by omega]
    rfl
  choose! op hop1 hop2 hop3 using hex
  refine ⟨(Spec.reps dirs).map fun e => (e, op e), ?_, ?_, ?_, ?_, ?_⟩
  · rw [directionGroups_eq _ _ hn]
  · rw [directionGroups_eq _ _ hn]
    simp only [List.map_map]
    refine List.map_congr_left fun e he => ?_
    simp only [Function.comp]
    rw [hop3 e (reps_sub dirs e he).1]
    rfl
  · intro p hp
    obtain ⟨e, he, rfl⟩ := List.mem_map.1 hp
    have h := reps_sub dirs e he
    exact ⟨h.1, hop1 e h.1, hop2 e h.1, by rw [hop2 e h.1]; exact h.2⟩
  · intro e he hne
    rcases reps_total dirs e he hne with h | h
    · exact ⟨(e, op e), List.mem_map.2 ⟨e, h, rfl⟩, Or.inl rfl⟩
    · obtain ⟨e', h', h⟩ := List.mem_map.1 h
      refine ⟨(e', op e'), List.mem_map.2 ⟨e', h', rfl⟩, Or.inr ?_⟩
      have hd := (reps_sub dirs e' h').1
      refine List.inj_on_of_nodup_map hn he (hop1 e' hd) ?_
      rw [hop2 e' hd, h, neg_neg_dir]
  · rw [List.flatMap_map, List.nodup_flatMap]
    constructor
    · intro e he
      have h := reps_sub dirs e he
      simp only [List.nodup_cons, List.mem_singleton, List.not_mem_nil, not_false_eq_true, List.nodup_nil, and_true]
      rw [hop2 e h.1]
      exact fun hc => h.2 hc.symm
    · have hnr := reps_nodup dirs hn
      unfold List.Nodup at hnr
      rw [List.pairwise_map] at hnr
      refine hnr.imp_of_mem ?_
      intro a b ha hb hab
      have hda := (reps_sub dirs a ha).1
      have hdb := (reps_sub dirs b hb).1
      intro x hxa hxb
      simp only [List.mem_cons, List.not_mem_nil, or_false] at hxa hxb
      rw [hop2 a hda] at hxa
      rw [hop2 b hdb] at hxb
      rcases hxa with rfl | rfl <;> rcases hxb with h | h
      · exact hab h
      · exact reps_antipodal dirs hn b hb a ha h
      · exact reps_antipodal dirs hn a ha b hb h.symm
      · exact hab (by rw [← neg_neg_dir a.1, h, neg_neg_dir])

/-- For a stencil without repetitions that contains the opposite of every direction, the groups are: the precomputed
symbols with the other written fields and the rest population, then one group for each pair of opposite directions,
containing both. -/
theorem C74_groups (r : Rule Sym) (le : Sym → Sym → Bool) (dirs : List (List ℤ × Sym)) (extra : List Sym)
    (hmain : r.main.map Prod.fst = dirs.map Prod.snd ++ extra)
    (hn : (dirs.map Prod.fst).Nodup) (hinv : ∀ e ∈ dirs, neg e.1 ∈ dirs.map Prod.fst) :
    ∃ pairs : List ((List ℤ × Sym) × (List ℤ × Sym)),
      create r le (dirs.map Prod.fst) true =
        (r.precomputed le ++ r.otherFields ++ (dirs.filter fun e => neg e.1 = e.1).map Prod.snd) ::
          pairs.map (fun p => [p.1.2, p.2.2]) ∧
      (∀ p ∈ pairs, p.1 ∈ dirs ∧ p.2 ∈ dirs ∧ p.2.1 = neg p.1.1 ∧ p.2.1 ≠ p.1.1) ∧
      (∀ e ∈ dirs, neg e.1 ≠ e.1 → ∃ p ∈ pairs, e = p.1 ∨ e = p.2) ∧
      (pairs.flatMap fun p => [p.1.1, p.2.1]).Nodup := by
  have hz : (dirs.map Prod.fst).zip (r.main.map Prod.fst) = dirs := by
    rw [hmain]
    have e : (dirs.map Prod.fst).zip (dirs.map Prod.snd ++ extra) =
        (dirs.map Prod.fst ++ []).zip (dirs.map Prod.snd ++ extra) := by rw [List.append_nil]
    rw [e, List.zip_append (by simp)]
    simp [List.zip_map']
  obtain ⟨pairs, h1, h2, h3⟩ := directionGroups_pairs (r.precomputed le ++ r.otherFields) dirs hn hinv
  refine ⟨pairs, ?_, h3⟩
  unfold create
  simp only [if_true, hz]
  rw [h1, h2]

/-- With `opposing_directions=False` every equation has a loop of its own, and the other written fields are computed in
the first loop as well. -/
theorem C74_separate (r : Rule Sym) (le : Sym → Sym → Bool) (stencil : List (List ℤ)) :
    create r le stencil false = (r.precomputed le ++ r.otherFields) :: (r.main.map Prod.fst).map (fun s => [s]) ∧
    (∀ s, s ∈ r.otherFields ↔ (∃ e ∈ r.main, e.1 = s) ∧ s ∉ r.post ∧ r.isFieldAccess s = true) ∧
    ∀ s ∈ r.otherFields, [s] ∈ (create r le stencil false).tail := by
  unfold create
  simp only [Bool.false_eq_true, if_false, List.map_map]
  refine ⟨rfl, fun s => by simp [Rule.otherFields], fun s hs => ?_⟩
  have : s ∈ r.main.map Prod.fst := (List.mem_filter.1 hs).1
  obtain ⟨e, he, rfl⟩ := List.mem_map.1 this
  exact List.mem_map.2 ⟨e, he, rfl⟩

/-! ### The split loop computes the same -/

section loop
variable {D : ℕ} {G V P : Type} [AddCommGroup G] [DecidableEq G]

section general
variable {Q : ℕ} (φ : Vec D →+ G) {rd wr : Fin Q → Access D Q}

theorem storeGroup_mem (hw : Function.Injective fun i => (wr i).2) (view : (G × Fin Q → V) → G × Fin Q → V)
    (C : (Fin Q → V) → Fin Q → V) (x : G) (g : List (Fin Q)) (f : G × Fin Q → V) (i : Fin Q) (hi : i ∈ g) :
    storeGroup φ rd wr view C x g f (loc φ x (wr i)) = C (fun j => view f (loc φ x (rd j))) i :=
  foldl_update_mem (loc_injective φ hw x) _ _ _ _ hi

theorem storeGroup_other (hw : Function.Injective fun i => (wr i).2) (view : (G × Fin Q → V) → G × Fin Q → V)
    (C : (Fin Q → V) → Fin Q → V) (x : G) (g : List (Fin Q)) (f : G × Fin Q → V) (y : G) (i : Fin Q)
    (h : ¬ (y = x ∧ i ∈ g)) :
    storeGroup φ rd wr view C x g f (loc φ y (wr i)) = f (loc φ y (wr i)) := by
  refine foldl_update_not_mem _ _ _ _ _ fun j hj he => ?_
  obtain ⟨h1, h2⟩ := loc_inj φ hw he
  exact h ⟨h1, h2 ▸ hj⟩

/-- `f'` holds the results `E` in the places of `W` and is as `f` elsewhere. -/
def St (φ : Vec D →+ G) (wr : Fin Q → Access D Q) (E : G → Fin Q → V) (f : G × Fin Q → V) (W : Set (G × Fin Q))
    (f' : G × Fin Q → V) : Prop :=
  (∀ x i, (x, i) ∈ W → f' (loc φ x (wr i)) = E x i) ∧
  (∀ x i, (x, i) ∉ W → f' (loc φ x (wr i)) = f (loc φ x (wr i)))

theorem St.store {φ : Vec D →+ G} (hw : Function.Injective fun i => (wr i).2) {E : G → Fin Q → V}
    {f : G × Fin Q → V} {W : Set (G × Fin Q)} {f' : G × Fin Q → V} (h : St φ wr E f W f')
    (view : (G × Fin Q → V) → G × Fin Q → V) (C : (Fin Q → V) → Fin Q → V) (x : G) (g : List (Fin Q))
    (hC : ∀ i ∈ g, C (fun j => view f' (loc φ x (rd j))) i = E x i) :
    St φ wr E f (W ∪ {k | k.1 = x ∧ k.2 ∈ g}) (storeGroup φ rd wr view C x g f') := by
  constructor
  · intro y i hy
    by_cases hc : y = x ∧ i ∈ g
    · obtain ⟨rfl, hi⟩ := hc
      rw [storeGroup_mem φ hw _ _ _ _ _ _ hi, hC i hi]
    · rw [storeGroup_other φ hw _ _ _ _ _ _ _ hc]
      rcases hy with hy | hy
      · exact h.1 y i hy
      · exact absurd hy hc
  · intro y i hy
    have hc : ¬ (y = x ∧ i ∈ g) := fun hc => hy (Or.inr hc)
    rw [storeGroup_other φ hw _ _ _ _ _ _ _ hc]
    exact h.2 y i fun h' => hy (Or.inl h')

theorem St.congr {φ : Vec D →+ G} {E : G → Fin Q → V} {f : G × Fin Q → V} {W W' : Set (G × Fin Q)}
    {f' : G × Fin Q → V} (h : St φ wr E f W f') (hW : ∀ k, k ∈ W ↔ k ∈ W') : St φ wr E f W' f' := by
  have : W = W' := Set.ext hW
  exact this ▸ h

theorem loc_surj (hw : Function.Injective fun i => (wr i).2) (k : G × Fin Q) : ∃ x i, k = loc φ x (wr i) := by
  obtain ⟨i, hi⟩ := (Finite.injective_iff_surjective.1 hw) k.2
  refine ⟨k.1 - φ (wr i).1, i, ?_⟩
  unfold loc
  simp only at hi
  rw [hi, sub_add_cancel]

theorem St.unique {φ : Vec D →+ G} (hw : Function.Injective fun i => (wr i).2) {E : G → Fin Q → V}
    {f : G × Fin Q → V} {W : Set (G × Fin Q)} {f₁ f₂ : G × Fin Q → V} (h₁ : St φ wr E f W f₁)
    (h₂ : St φ wr E f W f₂) : f₁ = f₂ := by
  classical
  funext k
  obtain ⟨x, i, rfl⟩ := loc_surj φ hw k
  by_cases h : (x, i) ∈ W
  · rw [h₁.1 x i h, h₂.1 x i h]
  · rw [h₁.2 x i h, h₂.2 x i h]

/-- The loops of the later groups, when in every state reached the results of the group are the right ones. -/
theorem laterLoop_St (hw : Function.Injective fun i => (wr i).2) {E : G → Fin Q → V} {f : G × Fin Q → V}
    (view : (G × Fin Q → V) → G × Fin Q → V) (C : G → P → (Fin Q → V) → Fin Q → V) (reg : G → P)
    (g : List (Fin Q)) (line : List G) (hnd : line.Nodup) (W : Set (G × Fin Q)) (f' : G × Fin Q → V)
    (h : St φ wr E f W f')
    (hC : ∀ x ∈ line, ∀ W' f'', St φ wr E f W' f'' → (∀ i, (x, i) ∈ W' → (x, i) ∈ W) →
      ∀ i ∈ g, C x (reg x) (fun j => view f'' (loc φ x (rd j))) i = E x i) :
    St φ wr E f (W ∪ {k | k.1 ∈ line ∧ k.2 ∈ g}) (laterLoop φ rd wr view C reg line f' g) := by
  unfold laterLoop
  induction line generalizing W f' with
  | nil => exact h.congr (by simp)
  | cons x xs ih =>
    rw [List.foldl_cons]
    have hnd' := List.nodup_cons.1 hnd
    have h1 := h.store (rd := rd) hw view (C x (reg x)) x g
      (hC x List.mem_cons_self W f' h fun _ h => h)
    have h2 := ih hnd'.2 _ _ h1 (by
      intro y hy W' f'' hst hsub i hi
      refine hC y (List.mem_cons_of_mem _ hy) W' f'' hst (fun i' hi' => ?_) i hi
      rcases hsub i' hi' with h' | h'
      · exact h'
      · exact absurd (h'.1 ▸ hy) hnd'.1)
    refine h2.congr fun k => ?_
    simp only [Set.mem_union, Set.mem_setOf_eq, List.mem_cons]
    tauto

theorem laterLoops_St (hw : Function.Injective fun i => (wr i).2) {E : G → Fin Q → V} {f : G × Fin Q → V}
    (view : (G × Fin Q → V) → G × Fin Q → V) (C : G → P → (Fin Q → V) → Fin Q → V) (reg : G → P)
    (line : List G) (hnd : line.Nodup) (groups : List (List (Fin Q))) (hdis : groups.Pairwise List.Disjoint)
    (W : Set (G × Fin Q)) (f' : G × Fin Q → V) (h : St φ wr E f W f')
    (hW : ∀ g ∈ groups, ∀ x i, (x, i) ∈ W → i ∉ g)
    (hC : ∀ g ∈ groups, ∀ x ∈ line, ∀ W' f'', St φ wr E f W' f'' → (∀ i ∈ g, (x, i) ∉ W') →
      ∀ i ∈ g, C x (reg x) (fun j => view f'' (loc φ x (rd j))) i = E x i) :
    St φ wr E f (W ∪ {k | k.1 ∈ line ∧ ∃ g ∈ groups, k.2 ∈ g})
      (groups.foldl (laterLoop φ rd wr view C reg line) f') := by
  induction groups generalizing W f' with
  | nil => exact h.congr (by simp)
  | cons g gs ih =>
    rw [List.foldl_cons]
    rw [List.pairwise_cons] at hdis
    have h1 := laterLoop_St φ (rd := rd) hw view C reg g line hnd W f' h (by
      intro x hx W' f'' hst hsub i hi
      refine hC g List.mem_cons_self x hx W' f'' hst (fun i' hi' hc => ?_) i hi
      exact hW g List.mem_cons_self x i' (hsub i' hc) hi')
    have h2 := ih hdis.2 _ _ h1 (by
      intro g' hg' x i hi hig'
      rcases hi with hi | hi
      · exact hW g' (List.mem_cons_of_mem _ hg') x i hi hig'
      · exact hdis.1 g' hg' hi.2 hig')
      (fun g' hg' => hC g' (List.mem_cons_of_mem _ hg'))
    refine h2.congr fun k => ?_
    simp only [Set.mem_union, Set.mem_setOf_eq, List.mem_cons, exists_eq_or_imp]
    tauto

/-- The first loop. -/
theorem firstLoop_St (hw : Function.Injective fun i => (wr i).2) {f : G × Fin Q → V}
    (view : (G × Fin Q → V) → G × Fin Q → V) (pre : G → (Fin Q → V) → P) (C : G → P → (Fin Q → V) → Fin Q → V)
    (R : G → Fin Q → V) (g : List (Fin Q)) (line : List G) (hnd : line.Nodup)
    (W : Set (G × Fin Q)) (s : (G × Fin Q → V) × (G → P))
    (h : St φ wr (fun x i => C x (pre x (R x)) (R x) i) f W s.1)
    (hW : ∀ x ∈ line, ∀ i, (x, i) ∉ W)
    (hR : ∀ x W' f'', St φ wr (fun x i => C x (pre x (R x)) (R x) i) f W' f'' → (∀ i, (x, i) ∉ W') →
      (fun j => view f'' (loc φ x (rd j))) = R x) :
    St φ wr (fun x i => C x (pre x (R x)) (R x) i) f (W ∪ {k | k.1 ∈ line ∧ k.2 ∈ g})
      (firstLoop φ rd wr view pre C g line s).1 ∧
    (∀ x ∈ line, (firstLoop φ rd wr view pre C g line s).2 x = pre x (R x)) ∧
    ∀ x, x ∉ line → (firstLoop φ rd wr view pre C g line s).2 x = s.2 x := by
  unfold firstLoop
  induction line generalizing W s with
  | nil => exact ⟨h.congr (by simp), by simp, by simp⟩
  | cons x xs ih =>
    rw [List.foldl_cons]
    have hnd' := List.nodup_cons.1 hnd
    have hr := hR x W s.1 h (hW x List.mem_cons_self)
    simp only [hr]
    have h1 := h.store (rd := rd) hw view (C x (pre x (R x))) x g (by
      intro i hi
      rw [hr])
    obtain ⟨a1, a2, a3⟩ := ih hnd'.2 _
      (storeGroup φ rd wr view (C x (pre x (R x))) x g s.1, Function.update s.2 x (pre x (R x))) h1 (by
      intro y hy i hi
      rcases hi with hi | hi
      · exact hW y (List.mem_cons_of_mem _ hy) i hi
      · exact hnd'.1 (hi.1 ▸ hy))
    refine ⟨a1.congr fun k => ?_, ?_, ?_⟩
    · simp only [Set.mem_union, Set.mem_setOf_eq, List.mem_cons]
      tauto
    · intro y hy
      rcases List.mem_cons.1 hy with rfl | hy
      · refine (a3 _ hnd'.1).trans ?_
        simp
      · exact a2 y hy
    · intro y hy
      rw [List.mem_cons, not_or] at hy
      refine (a3 y hy.2).trans ?_
      simp [hy.1]


/-- A line of the split loop writing to a second array. -/
theorem splitLine_two (hw : Function.Injective fun i => (wr i).2) (src : G × Fin Q → V)
    (pre : G → (Fin Q → V) → P) (C : G → P → (Fin Q → V) → Fin Q → V) (first : List (Fin Q))
    (groups : List (List (Fin Q))) (reg : G → P) (line : List G) (hnd : line.Nodup) (f : G × Fin Q → V) :
    St φ wr (fun x i => C x (pre x fun j => src (loc φ x (rd j))) (fun j => src (loc φ x (rd j))) i) f
      {k | k.1 ∈ line ∧ (k.2 ∈ first ∨ ∃ g ∈ groups, k.2 ∈ g)}
      (splitLine φ rd wr (fun _ => src) pre C first groups reg line f) := by
  unfold splitLine
  simp only
  obtain ⟨h1, h2, -⟩ := firstLoop_St φ (rd := rd) (f := f) hw (fun _ => src) pre C
    (fun x j => src (loc φ x (rd j))) first line hnd ∅ (f, reg)
    ⟨fun _ _ h => absurd h (Set.notMem_empty _), fun _ _ _ => rfl⟩
    (fun _ _ _ => Set.notMem_empty _) (fun _ _ _ _ _ => rfl)
  have key : ∀ (gs : List (List (Fin Q))) (W : Set (G × Fin Q)) (f' : G × Fin Q → V),
      St φ wr (fun x i => C x (pre x fun j => src (loc φ x (rd j))) (fun j => src (loc φ x (rd j))) i) f W f' →
      St φ wr (fun x i => C x (pre x fun j => src (loc φ x (rd j))) (fun j => src (loc φ x (rd j))) i) f
        (W ∪ {k | k.1 ∈ line ∧ ∃ g ∈ gs, k.2 ∈ g})
        (gs.foldl (laterLoop φ rd wr (fun _ => src) C
          (firstLoop φ rd wr (fun _ => src) pre C first line (f, reg)).2 line) f') := by
    intro gs
    induction gs with
    | nil => intro W f' h; exact h.congr (by simp)
    | cons g gs ih =>
      intro W f' h
      rw [List.foldl_cons]
      have a := laterLoop_St φ (rd := rd) hw (fun _ => src) C
        (firstLoop φ rd wr (fun _ => src) pre C first line (f, reg)).2 g line hnd W f' h (by
          intro x hx W' f'' _ _ i _
          rw [h2 x hx])
      refine (ih _ _ a).congr fun k => ?_
      simp only [Set.mem_union, Set.mem_setOf_eq, List.mem_cons, exists_eq_or_imp]
      tauto
  refine (key groups _ _ h1).congr fun k => ?_
  simp only [Set.mem_union, Set.mem_setOf_eq, Set.mem_empty_iff_false, false_or]
  tauto

/-- A line of the split loop working on a single array: the places of a cell are those it is read from, and what a
later group stores depends, apart from the kept quantities, only on the populations whose places it writes. -/
theorem splitLine_inplace (hr : Function.Injective fun i => (rd i).2) (hw : Function.Injective fun i => (wr i).2)
    (τ : Fin Q → Fin Q) (hτ : ∀ j, rd j = wr (τ j))
    (pre : G → (Fin Q → V) → P) (C : G → P → (Fin Q → V) → Fin Q → V) (first : List (Fin Q))
    (groups : List (List (Fin Q))) (hdis : groups.Pairwise List.Disjoint)
    (hfirst : ∀ g ∈ groups, List.Disjoint first g)
    (hloc : ∀ g ∈ groups, ∀ x q f f', (∀ j, τ j ∈ g → f j = f' j) → ∀ i ∈ g, C x q f i = C x q f' i)
    (reg : G → P) (line : List G) (hnd : line.Nodup) (f : G × Fin Q → V) :
    St φ wr (fun x i => C x (pre x fun j => f (loc φ x (rd j))) (fun j => f (loc φ x (rd j))) i) f
      {k | k.1 ∈ line ∧ (k.2 ∈ first ∨ ∃ g ∈ groups, k.2 ∈ g)}
      (splitLine φ rd wr id pre C first groups reg line f) := by
  unfold splitLine
  simp only
  obtain ⟨h1, h2, -⟩ := firstLoop_St φ (rd := rd) (f := f) hw id pre C
    (fun x j => f (loc φ x (rd j))) first line hnd ∅ (f, reg)
    ⟨fun _ _ h => absurd h (Set.notMem_empty _), fun _ _ _ => rfl⟩
    (fun _ _ _ => Set.notMem_empty _) (by
      intro x W' f'' hst hx
      funext j
      simp only [id]
      rw [hτ j]
      exact hst.2 x _ (hx _))
  have h3 := laterLoops_St φ (rd := rd) hw id C (firstLoop φ rd wr id pre C first line (f, reg)).2 line hnd groups
    hdis _ _ h1 (by
      rintro g hg x i (hi | hi) hig
      · exact absurd hi (Set.notMem_empty _)
      · exact hfirst g hg hi.2 hig) (by
      intro g hg x hx W' f'' hst hW' i hi
      rw [h2 x hx]
      refine hloc g hg x _ _ _ (fun j hj => ?_) i hi
      simp only [id]
      rw [hτ j]
      exact hst.2 x _ (hW' _ hj))
  refine h3.congr fun k => ?_
  simp only [Set.mem_union, Set.mem_setOf_eq, Set.mem_empty_iff_false, false_or]
  tauto

theorem sweepTwo_append (C : G → (Fin Q → V) → Fin Q → V) (l₁ l₂ : List G) (src dst : G × Fin Q → V) :
    sweepTwo φ rd wr C (l₁ ++ l₂) src dst = sweepTwo φ rd wr C l₂ src (sweepTwo φ rd wr C l₁ src dst) := by
  unfold sweepTwo; rw [List.foldl_append]

theorem sweepInplace_append (C : G → (Fin Q → V) → Fin Q → V) (l₁ l₂ : List G) (f : G × Fin Q → V) :
    sweepInplace φ rd wr C (l₁ ++ l₂) f = sweepInplace φ rd wr C l₂ (sweepInplace φ rd wr C l₁ f) := by
  unfold sweepInplace; rw [List.foldl_append]

end general

section patterns
variable {S : Stencil D}

theorem collect_ok {Q : ℕ} {α : Type} {f : Fin Q → Option α} {g : Fin Q → α} (h : collect f = some g)
    {R : Fin Q → α → Prop} (hR : ∀ i a, f i = some a → R i a) (i : Fin Q) : R i (g i) :=
  hR i _ (collect_eq_some.1 h i)

theorem esoAccess_ok {ev od : Fin S.Q → Option (Access D S.Q)} {g : Fin S.Q → Access D S.Q}
    (h : esoAccess S ev od = some g) {R : Fin S.Q → Access D S.Q → Prop} (h0 : ∀ i, R i (0, i))
    (h1 : ∀ i a, ev i = some a → R i a) (h2 : ∀ i a, od i = some a → R i a) (i : Fin S.Q) : R i (g i) := by
  refine collect_ok h (fun i a ha => ?_) i
  split_ifs at ha with hi
  · injection ha with ha
    rw [← ha]; exact h0 i
  · cases hb : lehmannEven S (S.c i) with
    | none => rw [hb] at ha; exact nomatch ha
    | some b =>
      rw [hb] at ha
      cases b
      · exact h2 i a ha
      · exact h1 i a ha

/-- The index of every access is the direction or its opposite. -/
theorem access_index {p : String} (hs : Supported S p) {ts : Timestep} {a : Accessor D}
    {rd wr : Fin S.Q → Access D S.Q} (ha : getAccessor D p ts = some a) (hr : a.read S = some rd)
    (hw : a.write S = some wr) (i : Fin S.Q) :
    (S.c (rd i).2 = S.c i ∨ S.c (rd i).2 = -S.c i) ∧ (S.c (wr i).2 = S.c i ∨ S.c (wr i).2 = -S.c i) := by
  obtain ⟨hp, hv, -, -⟩ := hs
  have same : ∀ (v : Vec D) (i : Fin S.Q) (a : Access D S.Q), some (v, i) = some a →
      (S.c a.2 = S.c i ∨ S.c a.2 = -S.c i) := by
    intro v i a h; injection h with h; subst h; exact Or.inl rfl
  have opp : ∀ (v : Vec D) (i : Fin S.Q) (a : Access D S.Q),
      (do return (v, ← S.inverseIndex (S.c i)) : Option (Access D S.Q)) = some a →
      (S.c a.2 = S.c i ∨ S.c a.2 = -S.c i) := by
    intro v i a h
    cases hj : S.inverseIndex (S.c i) with
    | none => rw [hj] at h; exact nomatch h
    | some j =>
      rw [hj] at h
      injection h with h
      subst h
      exact Or.inr ((Stencil.index_eq_some hv).1 hj)
  simp only [streamingPatterns, List.mem_cons, List.not_mem_nil, or_false] at hp
  rcases hp with rfl | rfl | rfl | rfl | rfl | rfl <;> cases ts <;>
    first
    | (have h0 : (none : Option (Accessor D)) = some a := ha
       cases h0)
    | (injection ha with ha
       subst ha
       refine ⟨?_, ?_⟩
       · first
         | exact collect_ok hr (fun i a h => same _ i a h) i
         | exact collect_ok hr (fun i a h => opp _ i a h) i
         | exact esoAccess_ok hr (fun i => Or.inl rfl) (fun i a h => same _ i a h) (fun i a h => same _ i a h) i
         | exact esoAccess_ok hr (fun i => Or.inl rfl) (fun i a h => opp _ i a h) (fun i a h => opp _ i a h) i
       · first
         | exact collect_ok hw (fun i a h => same _ i a h) i
         | exact collect_ok hw (fun i a h => opp _ i a h) i
         | exact esoAccess_ok hw (fun i => Or.inl rfl) (fun i a h => same _ i a h) (fun i a h => same _ i a h) i
         | exact esoAccess_ok hw (fun i => Or.inl rfl) (fun i a h => opp _ i a h) (fun i a h => opp _ i a h) i)

/-- Cells are covered by the groups: what the lines of the split loop write, a loop that is not split writes. -/
theorem splitLine_eq_two {Q : ℕ} (φ : Vec D →+ G) {rd wr : Fin Q → Access D Q}
    (hw : Function.Injective fun i => (wr i).2) (src : G × Fin Q → V)
    (pre : G → (Fin Q → V) → P) (C : G → P → (Fin Q → V) → Fin Q → V) (first : List (Fin Q))
    (groups : List (List (Fin Q))) (hcov : ∀ i, i ∈ first ∨ ∃ g ∈ groups, i ∈ g) (reg : G → P) (line : List G)
    (hnd : line.Nodup) (f : G × Fin Q → V) :
    splitLine φ rd wr (fun _ => src) pre C first groups reg line f =
      sweepTwo φ rd wr (fun x f i => C x (pre x f) f i) line src f := by
  refine (splitLine_two φ hw src pre C first groups reg line hnd f).unique hw ⟨?_, ?_⟩
  · intro x i hx
    exact sweepTwo_mem φ _ hw line src f x hx.1 i
  · intro x i hx
    refine sweepTwo_other φ _ line src f _ fun y hy j he => hx ?_
    obtain ⟨rfl, rfl⟩ := loc_inj φ hw he
    exact ⟨hy, hcov i⟩

/-- C74, patterns with two arrays: whatever is computed beforehand and however the directions are distributed to the
groups, the split kernel computes what the kernel without splitting computes, line after line. -/
theorem C74_two_arrays (φ : Vec D →+ G) {p : String} (hs : Supported S p) {ts : Timestep} (ht : TsOk p ts) :
    ∃ a rd wr, getAccessor D p ts = some a ∧ a.read S = some rd ∧ a.write S = some wr ∧
      ∀ (pre : G → (Fin S.Q → V) → P) (C : G → P → (Fin S.Q → V) → Fin S.Q → V) (first : List (Fin S.Q))
        (groups : List (List (Fin S.Q))), (∀ i, i ∈ first ∨ ∃ g ∈ groups, i ∈ g) →
        ∀ (reg : G → P) (lines : List (List G)), (∀ l ∈ lines, l.Nodup) → ∀ src dst : G × Fin S.Q → V,
        lines.foldl (fun d line => splitLine φ rd wr (fun _ => src) pre C first groups reg line d) dst =
          sweepTwo φ rd wr (fun x f i => C x (pre x f) f i) lines.flatten src dst := by
  obtain ⟨a, rd, wr, rd', F⟩ := stepFacts hs ht
  refine ⟨a, rd, wr, F.acc, F.read, F.write, ?_⟩
  intro pre C first groups hcov reg lines hn src dst
  induction lines generalizing dst with
  | nil => rfl
  | cons l ls ih =>
    rw [List.foldl_cons, List.flatten_cons, sweepTwo_append,
      ih (fun l hl => hn l (List.mem_cons_of_mem _ hl)),
      splitLine_eq_two φ F.wr_inj src pre C first groups hcov reg l (hn l List.mem_cons_self)]

/-- What a kernel has to satisfy to be split with a single array: a direction that is not in the first group uses, apart
from the quantities kept from the first loop, its own population and the opposite one. -/
def Spec.PairLocal (S : Stencil D) (first : List (Fin S.Q)) (C : G → P → (Fin S.Q → V) → Fin S.Q → V) : Prop :=
  ∀ x q f f' i, i ∉ first → (∀ j, S.c j = S.c i ∨ S.c j = -S.c i → f j = f' j) → C x q f i = C x q f' i

/-- C74, patterns with a single array: if the groups are disjoint and contain with a direction its opposite, and the
kernel satisfies the condition, the split kernel computes what the kernel without splitting computes. -/
theorem C74_inplace (φ : Vec D →+ G) {p : String} (hs : Supported S p) (hin : isInplace p = some true)
    {ts : Timestep} (ht : TsOk p ts) :
    ∃ a rd wr, getAccessor D p ts = some a ∧ a.read S = some rd ∧ a.write S = some wr ∧
      ∀ (pre : G → (Fin S.Q → V) → P) (C : G → P → (Fin S.Q → V) → Fin S.Q → V) (first : List (Fin S.Q))
        (groups : List (List (Fin S.Q))), (∀ i, i ∈ first ∨ ∃ g ∈ groups, i ∈ g) →
        groups.Pairwise List.Disjoint → (∀ g ∈ groups, List.Disjoint first g) →
        (∀ g ∈ groups, ∀ i ∈ g, ∀ j, S.c j = -S.c i → j ∈ g) → Spec.PairLocal S first C →
        ∀ (reg : G → P) (lines : List (List G)), lines.flatten.Nodup → ∀ f : G × Fin S.Q → V,
        lines.foldl (fun d line => splitLine φ rd wr id pre C first groups reg line d) f =
          sweepInplace φ rd wr (fun x f i => C x (pre x f) f i) lines.flatten f := by
  obtain ⟨a, rd, wr, rd', F⟩ := stepFacts hs ht
  refine ⟨a, rd, wr, F.acc, F.read, F.write, ?_⟩
  have hflag : a.isInplace = true := by have := F.flag; rw [hin] at this; exact (Option.some.inj this).symm
  obtain ⟨σ, hσb, hσ, -⟩ := F.inplace hflag
  intro pre C first groups hcov hdis hfirst hclosed hloc reg lines hn f
  obtain ⟨τ, hτ1, hτ2⟩ := Function.bijective_iff_has_inverse.1 hσb
  have hτ : ∀ j, rd j = wr (τ j) := fun j => by rw [hσ, hτ2 j]
  -- `τ` exchanges only a direction and its opposite
  have hpm : ∀ j, S.c (τ j) = S.c j ∨ S.c (τ j) = -S.c j := by
    intro j
    have h1 := (access_index hs F.acc F.read F.write j).1
    have h2 := (access_index hs F.acc F.read F.write (τ j)).2
    rw [hτ j] at h1
    rcases h1 with h1 | h1 <;> rcases h2 with h2 | h2
    · left; rw [← h2, h1]
    · right; rw [← h1, h2, neg_neg]
    · right; rw [← h2, h1]
    · left; rw [← neg_neg (S.c (τ j)), ← h2, h1, neg_neg]
  have hmem : ∀ g ∈ groups, ∀ i ∈ g, ∀ j, S.c j = S.c i ∨ S.c j = -S.c i → j ∈ g := by
    intro g hg i hi j hj
    rcases hj with hj | hj
    · rw [hs.2.1 hj]; exact hi
    · exact hclosed g hg i hi j hj
  have hline : ∀ (line : List G), line.Nodup → ∀ f : G × Fin S.Q → V,
      splitLine φ rd wr id pre C first groups reg line f =
        sweepInplace φ rd wr (fun x f i => C x (pre x f) f i) line f := by
    intro line hnd f
    refine (splitLine_inplace φ F.rd_inj F.wr_inj τ hτ pre C first groups hdis hfirst ?_ reg line hnd f).unique
      F.wr_inj ⟨?_, ?_⟩
    · intro g hg x q f₁ f₂ hf i hi
      refine hloc x q f₁ f₂ i (fun h => hfirst g hg h hi) fun j hj => hf j ?_
      refine hmem g hg i hi _ ?_
      rcases hpm j with h | h <;> rcases hj with hj | hj <;> rw [h, hj] <;> simp
    · intro x i hx
      exact sweepInplace_mem φ _ F.rd_inj F.wr_inj hσ line hnd f x hx.1 i
    · intro x i hx
      refine sweepInplace_other φ _ line f _ fun y hy j he => hx ?_
      obtain ⟨rfl, rfl⟩ := loc_inj φ F.wr_inj he
      exact ⟨hy, hcov i⟩
  induction lines generalizing f with
  | nil => rfl
  | cons l ls ih =>
    rw [List.flatten_cons] at hn ⊢
    have hn' := List.nodup_append.1 hn
    rw [List.foldl_cons, sweepInplace_append, ih hn'.2.1, hline l hn'.1]

/-- The groups made by `create_lbm_split_groups` for a stencil satisfy the conditions of the two theorems. -/
theorem C74_groups_fit (hv : S.Valid) (hc : S.InvClosed) :
    let res := directionGroups ([] : List (Fin S.Q))
      ((List.finRange S.Q).map fun i => (List.ofFn (S.c i), i))
    (∀ i, i ∈ res.1 ∨ ∃ g ∈ res.2.map Prod.snd, i ∈ g) ∧
    (res.2.map Prod.snd).Pairwise List.Disjoint ∧
    (∀ g ∈ res.2.map Prod.snd, List.Disjoint res.1 g) ∧
    (∀ g ∈ res.2.map Prod.snd, ∀ i ∈ g, ∀ j, S.c j = -S.c i → j ∈ g) := by
  intro res
  set dirs : List (List ℤ × Fin S.Q) := (List.finRange S.Q).map fun i => (List.ofFn (S.c i), i) with hdirs
  have hneg : ∀ d : Vec D, neg (List.ofFn d) = List.ofFn (-d) := by
    intro d; unfold neg; rw [List.map_ofFn]; rfl
  have hmem : ∀ e, e ∈ dirs ↔ e = (List.ofFn (S.c e.2), e.2) := by
    intro e
    rw [hdirs, List.mem_map]
    constructor
    · rintro ⟨i, -, rfl⟩; rfl
    · intro h; exact ⟨e.2, List.mem_finRange _, h.symm⟩
  have hn : (dirs.map Prod.fst).Nodup := by
    rw [hdirs, List.map_map]
    refine (List.nodup_map_iff ?_).2 (List.nodup_finRange _)
    intro i j h
    exact hv (List.ofFn_injective h)
  have hinv : ∀ e ∈ dirs, neg e.1 ∈ dirs.map Prod.fst := by
    intro e he
    obtain ⟨j, hj⟩ := hc e.2
    refine List.mem_map.2 ⟨(List.ofFn (S.c j), j), (hmem _).2 rfl, ?_⟩
    rw [(hmem e).1 he, hneg, ← hj]
  obtain ⟨pairs, h1, h2, h3, h4, h5⟩ := directionGroups_pairs ([] : List (Fin S.Q)) dirs hn hinv
  have hp : ∀ p ∈ pairs, S.c p.2.2 = -S.c p.1.2 ∧ S.c p.2.2 ≠ S.c p.1.2 := by
    intro p hp
    obtain ⟨a1, a2, a3, a4⟩ := h3 p hp
    rw [(hmem _).1 a1, (hmem _).1 a2, hneg] at a3
    refine ⟨List.ofFn_injective a3, fun h => a4 ?_⟩
    rw [(hmem _).1 a1, (hmem _).1 a2, h]
  have hdj : pairs.Pairwise fun p p' => List.Disjoint [p.1.2, p.2.2] [p'.1.2, p'.2.2] := by
    rw [List.nodup_flatMap] at h5
    refine h5.2.imp_of_mem ?_
    intro p p' hp1 hp2 hd i hi hi'
    obtain ⟨a1, a2, -, -⟩ := h3 p hp1
    obtain ⟨b1, b2, -, -⟩ := h3 p' hp2
    have e1 : List.ofFn (S.c i) ∈ [p.1.1, p.2.1] := by
      simp only [List.mem_cons, List.not_mem_nil, or_false] at hi ⊢
      rcases hi with rfl | rfl
      · left; rw [(hmem _).1 a1]
      · right; rw [(hmem _).1 a2]
    have e2 : List.ofFn (S.c i) ∈ [p'.1.1, p'.2.1] := by
      simp only [List.mem_cons, List.not_mem_nil, or_false] at hi' ⊢
      rcases hi' with rfl | rfl
      · left; rw [(hmem _).1 b1]
      · right; rw [(hmem _).1 b2]
    exact hd e1 e2
  have hfirst : ∀ i, i ∈ res.1 ↔ S.c i = -S.c i := by
    intro i
    show i ∈ (directionGroups ([] : List (Fin S.Q)) dirs).1 ↔ _
    rw [h1, List.nil_append, List.mem_map]
    constructor
    · rintro ⟨e, he, rfl⟩
      rw [List.mem_filter, decide_eq_true_eq] at he
      rw [(hmem e).1 he.1, hneg] at he
      exact (List.ofFn_injective he.2).symm
    · intro h
      refine ⟨(List.ofFn (S.c i), i), List.mem_filter.2 ⟨(hmem _).2 rfl, ?_⟩, rfl⟩
      rw [decide_eq_true_eq, hneg, ← h]
  have hgr : res.2.map Prod.snd = pairs.map fun p => [p.1.2, p.2.2] := h2
  rw [hgr]
  refine ⟨?_, ?_, ?_, ?_⟩
  · intro i
    by_cases hi : S.c i = -S.c i
    · exact Or.inl ((hfirst i).2 hi)
    · right
      obtain ⟨p, hp, h⟩ := h4 (List.ofFn (S.c i), i) ((hmem _).2 rfl) (by
        simp only [hneg]
        exact fun h => hi (List.ofFn_injective h).symm)
      refine ⟨_, List.mem_map.2 ⟨p, hp, rfl⟩, ?_⟩
      rcases h with h | h <;> rw [← h] <;> simp
  · rw [List.pairwise_map]; exact hdj
  · intro g hg i hi hig
    obtain ⟨p, hp1, rfl⟩ := List.mem_map.1 hg
    have h := (hfirst i).1 hi
    obtain ⟨k1, k2⟩ := hp p hp1
    simp only [List.mem_cons, List.not_mem_nil, or_false] at hig
    rcases hig with rfl | rfl
    · exact k2 (by rw [k1, ← h])
    · exact k2 (by rw [h, k1, neg_neg])
  · intro g hg i hi j hj
    obtain ⟨p, hp1, rfl⟩ := List.mem_map.1 hg
    obtain ⟨k1, -⟩ := hp p hp1
    simp only [List.mem_cons, List.not_mem_nil, or_false] at hi ⊢
    rcases hi with rfl | rfl
    · right; exact hv (by rw [hj, k1])
    · left; exact hv (by rw [hj, k1, neg_neg])

/-- The groups of D2Q9. -/
example : directionGroups ([] : List (Fin exStencil.Q))
    ((List.finRange exStencil.Q).map fun i => (List.ofFn (exStencil.c i), i)) =
    ([⟨0, by decide⟩], [([0, 1], [⟨1, by decide⟩, ⟨2, by decide⟩]), ([-1, 0], [⟨3, by decide⟩, ⟨4, by decide⟩]),
      ([-1, 1], [⟨5, by decide⟩, ⟨8, by decide⟩]), ([1, 1], [⟨6, by decide⟩, ⟨7, by decide⟩])]) := by
  decide +kernel

theorem aaEven_read (S : Stencil D) : (aaEven : Accessor D).read S = some fun i => (0, i) :=
  collect_eq_some.2 fun _ => rfl

theorem aaEven_write (S : Stencil D) (h : ∀ i, (S.inverseIndex (S.c i)).isSome) :
    (aaEven : Accessor D).write S = some fun i => (0, (S.inverseIndex (S.c i)).getD i) :=
  collect_eq_some.2 fun i => by
    obtain ⟨j, hj⟩ := Option.isSome_iff_exists.1 (h i)
    rw [hj]; rfl

/-- Without the condition the split kernel with a single array computes something else: with the pattern `aa`, the
groups of D2Q9 and a kernel in which one direction uses the population of a direction of an earlier group. -/
theorem C74_inplace_needs_condition :
    ∃ (rd wr : Fin exStencil.Q → Access 2 exStencil.Q), (aaEven : Accessor 2).read exStencil = some rd ∧
      (aaEven : Accessor 2).write exStencil = some wr ∧
      ∃ (C : (ZMod 4 × ZMod 3) → Unit → (Fin exStencil.Q → ℕ) → Fin exStencil.Q → ℕ) (f : (ZMod 4 × ZMod 3) × Fin exStencil.Q → ℕ),
        let res := directionGroups ([] : List (Fin exStencil.Q))
          ((List.finRange exStencil.Q).map fun i => (List.ofFn (exStencil.c i), i))
        splitLine exTorus rd wr id (fun _ _ => ()) C res.1 (res.2.map Prod.snd) (fun _ => ()) [0] f ≠
          sweepInplace exTorus rd wr (fun x f i => C x () f i) [0] f := by
  refine ⟨fun i => (0, i), fun i => (0, (exStencil.inverseIndex (exStencil.c i)).getD i), ?_, ?_,
    fun _ _ f i => if i = ⟨3, by decide⟩ then f ⟨1, by decide⟩ else 0, fun _ => 1, ?_⟩
  · exact aaEven_read exStencil
  · exact aaEven_write exStencil (by decide +kernel)
  · intro res hc
    have := congrFun hc ((0, 0), ⟨4, by decide⟩)
    revert this
    simp only [res]
    decide +kernel

/-- A kernel with two relaxation rates satisfies the condition: it relaxes the sum and the difference of the
populations of a direction `i` and its opposite `inv i` to equilibria made of the kept quantities. -/
example (S : Stencil 2) (inv : Fin S.Q → Fin S.Q) (hinv : ∀ i, S.c (inv i) = -S.c i) (even odd : ℚ)
    (eqEven eqOdd : Unit → ℚ → Fin S.Q → ℚ) (first : List (Fin S.Q)) :
    Spec.PairLocal S first (fun x (q : ℚ) f i =>
      f i + even * (eqEven x q i - (f i + f (inv i)) / 2) + odd * (eqOdd x q i - (f i - f (inv i)) / 2)) := by
  intro x q f f' i _ h
  simp only
  rw [h i (.inl rfl), h (inv i) (.inr (hinv i))]

end patterns

end loop

end SplitGroups
end Lbm
