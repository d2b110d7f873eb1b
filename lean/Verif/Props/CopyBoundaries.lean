import Verif.CopyBoundaries
import Verif.Props.Boundary

/-!
# Boundary conditions writing populations of the boundary node (C82)
-/

set_option linter.unusedSectionVars false

namespace Lbm
namespace CopyBoundaries

variable {D : ℕ} {G V : Type} [AddCommGroup G] [DecidableEq G]

section updates

variable {α : Type} [DecidableEq α]

/-- A sequence of stores -/
def runWrites (f : α → V) (ws : List (α × V)) : α → V := ws.foldl (fun g kv => Function.update g kv.1 kv.2) f

theorem runWrites_other (ws : List (α × V)) (f : α → V) (k : α) (h : ∀ kv ∈ ws, kv.1 ≠ k) : runWrites f ws k = f k := by
  induction ws generalizing f with
  | nil => rfl
  | cons a ws ih =>
    show runWrites (Function.update f a.1 a.2) ws k = f k
    rw [ih _ fun kv hkv => h kv (List.mem_cons_of_mem _ hkv), Function.update_of_ne (h a (by simp)).symm]

theorem runWrites_mem (ws : List (α × V)) (f : α → V) (k : α) (v : V) (hm : (k, v) ∈ ws) (h : ∀ kv ∈ ws, kv.1 = k → kv.2 = v) :
    runWrites f ws k = v := by
  induction ws generalizing f with
  | nil => simp at hm
  | cons a ws ih =>
    show runWrites (Function.update f a.1 a.2) ws k = v
    by_cases hin : (k, v) ∈ ws
    · exact ih _ hin fun kv hkv => h kv (List.mem_cons_of_mem _ hkv)
    · have ha : a = (k, v) := by
        rcases List.mem_cons.1 hm with h' | h'
        · exact h'.symm
        · exact absurd h' hin
      rw [runWrites_other, ha, Function.update_self]
      intro kv hkv he
      have := h kv (List.mem_cons_of_mem _ hkv) he
      apply hin
      rw [← he, ← this]
      exact hkv

end updates

/-- The stores of the links with values from the array before the kernel -/
def storesOf (φ : Vec D →+ G) {S : Stencil D} (ix : Indexing S) (P : Pair G S.Q V) (inv : Fin S.Q → Fin S.Q)
    (fout : G → Fin S.Q → V) (links : List (G × Fin S.Q)) : List ((G × Fin S.Q) × V) :=
  links.flatMap fun l => [(loc φ l.1 (ix.inn (inv l.2)), P.toIn l.1 l.2 (inv l.2) fout),
    (loc φ (l.1 + φ (S.c l.2)) (ix.out l.2), P.toNeighbour l.1 l.2 (inv l.2) fout)]

/-- The right-hand sides look at the populations leaving the fluid cell of the link only. -/
def Pair.Local {Q : ℕ} (P : Pair G Q V) : Prop :=
  ∀ y j j' g g', (∀ i, g y i = g' y i) → P.toIn y j j' g = P.toIn y j j' g' ∧ P.toNeighbour y j j' g = P.toNeighbour y j j' g'

theorem in_eq_out (φ : Vec D →+ G) {S : Stencil D} {p ts a rd wr rd'} (F : StepFacts S p ts a rd wr rd') {inv : Fin S.Q → Fin S.Q}
    (hcinv : ∀ i, S.c (inv i) = -S.c i) (y : G) (j : Fin S.Q) :
    loc φ y (rd' (inv j)) = loc φ (y + φ (S.c j)) (wr (inv j)) := by
  rw [loc_wr φ F, hcinv, map_neg, add_neg_cancel_right]

theorem pairKernel_eq (φ : Vec D →+ G) {S : Stencil D} {p ts a rd wr rd'} (F : StepFacts S p ts a rd wr rd')
    {inv : Fin S.Q → Fin S.Q} (hidx : ∀ i, S.inverseIndex (S.c i) = some (inv i)) (hcinv : ∀ i, S.c (inv i) = -S.c i)
    (P : Pair G S.Q V) (hP : P.Local) (fluid : Set G) (links : List (G × Fin S.Q)) (hl : ∀ l ∈ links, IsLink φ S fluid l)
    (f0 f : G × Fin S.Q → V) (hf : ∀ z ∈ fluid, ∀ i, f (loc φ z (wr i)) = f0 (loc φ z (wr i))) :
    pairKernel φ ⟨wr, rd'⟩ P links f =
      some (runWrites f (storesOf φ ⟨wr, rd'⟩ P inv (fun x i => f0 (loc φ x (wr i))) links)) := by
  induction links generalizing f with
  | nil => rfl
  | cons l links ih =>
    obtain ⟨y, j⟩ := l
    have hlk := hl (y, j) (by simp)
    have hne : ∀ z ∈ fluid, ∀ i k, loc φ z (wr i) ≠ loc φ (y + φ (S.c j)) (wr k) := by
      intro z hz i k he
      obtain ⟨rfl, -⟩ := loc_inj φ F.wr_inj he
      exact hlk.2 hz
    have hj : Indexing.inverseDirIndex S j = some (inv j) := hidx j
    simp only [pairKernel, hj, Option.bind_eq_bind, Option.bind_some]
    have e1 : ∀ v, ∀ z ∈ fluid, ∀ i, Function.update f (loc φ y (rd' (inv j))) v (loc φ z (wr i)) = f0 (loc φ z (wr i)) := by
      intro v z hz i
      rw [Function.update_of_ne, hf z hz]
      rw [in_eq_out φ F hcinv]
      exact hne z hz i _
    have v1 := (hP y j (inv j) (fun x i => f (loc φ x (wr i))) (fun x i => f0 (loc φ x (wr i))) (fun i => hf y hlk.1 i)).1
    rw [v1]
    have v2 := (hP y j (inv j) (fun x i => Function.update f (loc φ y (rd' (inv j)))
      (P.toIn y j (inv j) fun x i => f0 (loc φ x (wr i))) (loc φ x (wr i))) (fun x i => f0 (loc φ x (wr i)))
      (fun i => e1 _ y hlk.1 i)).2
    rw [v2, ih (fun l h => hl l (List.mem_cons_of_mem _ h))]
    · rfl
    · intro z hz i
      rw [Function.update_of_ne (hne z hz i j), e1 _ z hz]

theorem pairHook_eq (φ : Vec D →+ G) {S : Stencil D} {p : String} (hs : Supported S p) (hc : S.InvClosed) (t : ℕ)
    (P : Pair G S.Q V) (hP : P.Local) (fluid : Set G) (links : List (G × Fin S.Q)) (hl : ∀ l ∈ links, IsLink φ S fluid l)
    (f : G × Fin S.Q → V) :
    ∃ (inv : Fin S.Q → Fin S.Q) (wr rd' : Fin S.Q → Access D S.Q), (∀ i, S.c (inv i) = -S.c i) ∧
      (Function.Injective fun i => (wr i).2) ∧ (Function.Injective fun i => (rd' i).2) ∧
      (∀ y j, loc φ y (rd' (inv j)) = loc φ (y + φ (S.c j)) (wr (inv j))) ∧
      (∀ g : G × Fin S.Q → V, writtenPops φ S p t g = some fun x i => g (loc φ x (wr i))) ∧
      (∀ g : G × Fin S.Q → V, readPops φ S p (t + 1) g = some fun x i => g (loc φ x (rd' i))) ∧
      pairHook φ S p P links t f =
        some (runWrites f (storesOf φ ⟨wr, rd'⟩ P inv (fun x i => f (loc φ x (wr i))) links)) := by
  obtain ⟨ts, h1, h2, h3⟩ := stepTimestep_spec hs.1 t
  obtain ⟨a, rd, wr, rd', F⟩ := stepFacts hs h2
  obtain ⟨a', ha', hrd'⟩ := F.next
  obtain ⟨inv, hidx, hcinv, -, -⟩ := exists_inv hs.2.1 hc
  have hmk := make_spec hs hc h2 F
  refine ⟨inv, wr, rd', hcinv, F.wr_inj, F.rd'_inj, in_eq_out φ F hcinv, fun g => by simp [writtenPops, h1, F.acc, F.write],
    fun g => by simp [readPops, h3, ha', hrd'], ?_⟩
  simp only [pairHook, h1, hmk, Option.bind_eq_bind, Option.bind_some]
  exact pairKernel_eq φ F hidx hcinv P hP fluid links hl f f fun _ _ _ => rfl

theorem mem_stores {φ : Vec D →+ G} {S : Stencil D} {ix : Indexing S} {P : Pair G S.Q V} {inv : Fin S.Q → Fin S.Q}
    {fout : G → Fin S.Q → V} {links : List (G × Fin S.Q)} {kv : (G × Fin S.Q) × V} : kv ∈ storesOf φ ix P inv fout links ↔
    ∃ y j, (y, j) ∈ links ∧ (kv = (loc φ y (ix.inn (inv j)), P.toIn y j (inv j) fout) ∨
      kv = (loc φ (y + φ (S.c j)) (ix.out j), P.toNeighbour y j (inv j) fout)) := by
  unfold storesOf
  rw [List.mem_flatMap]
  constructor
  · rintro ⟨⟨y, j⟩, hm, h⟩
    exact ⟨y, j, hm, by simpa using h⟩
  · rintro ⟨y, j, hm, h⟩
    exact ⟨(y, j), hm, by simpa using h⟩

theorem neumann_local {Q : ℕ} : (neumannByCopy : Pair G Q V).Local := fun _ _ _ _ _ h => ⟨h _, h _⟩

theorem constant_local {Q : ℕ} (v : V) : (streamInConstant v : Pair G Q V).Local := fun _ _ _ _ _ _ => ⟨rfl, rfl⟩

/-- **C82 (copy).**  Let `links` be links from a fluid region to its outside.  After `NeumannByCopy`, in every streaming pattern, the boundary
node of a link carries the two populations of the fluid cell along the link as its own outgoing populations, and the fluid cell reads next,
for the reversed direction, the population it sent in that direction — if the opposite link through the same boundary node is absent.
Nothing else changes. -/
theorem C82_neumann (φ : Vec D →+ G) {S : Stencil D} {p : String} (hs : Supported S p) (hc : S.InvClosed) (t : ℕ) (fluid : Set G)
    (links : List (G × Fin S.Q)) (hl : ∀ l ∈ links, l.1 ∈ fluid ∧ l.1 + φ (S.c l.2) ∉ fluid) (f : G × Fin S.Q → V) :
    ∃ f' w w' r r', pairHook φ S p neumannByCopy links t f = some f' ∧
      writtenPops φ S p t f = some w ∧ writtenPops φ S p t f' = some w' ∧
      readPops φ S p (t + 1) f = some r ∧ readPops φ S p (t + 1) f' = some r' ∧
      (∀ y j j', (y, j) ∈ links → S.c j' = -S.c j → (y + φ (S.c j) + φ (S.c j), j') ∉ links →
        r' y j' = w y j' ∧ w' (y + φ (S.c j)) j' = w y j' ∧ w' (y + φ (S.c j)) j = w y j) ∧
      (∀ x i, (∀ j, S.c i = -S.c j → (x + φ (S.c i), j) ∉ links) → (x - φ (S.c i), i) ∉ links → w' x i = w x i) ∧
      (∀ x i, (∀ j, S.c i = -S.c j → (x, j) ∉ links) → (x - φ (S.c i) - φ (S.c i), i) ∉ links → r' x i = r x i) := by
  obtain ⟨inv, wr, rd', hcinv, hwr, hrd, hio, hw, hr, he⟩ := pairHook_eq φ hs hc t neumannByCopy neumann_local fluid links hl f
  have hv := hs.2.1
  have huniq : ∀ {j j'}, S.c j' = -S.c j → j' = inv j := fun {j j'} h => hv (by rw [h, hcinv])
  have hinv2 : ∀ j, inv (inv j) = j := fun j => hv (by rw [hcinv, hcinv, neg_neg])
  have hself : ∀ y j, (y, j) ∈ links → inv j ≠ j := by
    intro y j hm hj
    have h0 : S.c j = 0 := by
      have := hcinv j
      rw [hj] at this
      funext d
      have := congrFun this d
      simp only [Pi.neg_apply, Pi.zero_apply] at *
      omega
    have := hl _ hm
    simp only [h0, map_zero, add_zero] at this
    exact this.2 this.1
  -- the value at a location of a boundary node
  have key1 : ∀ y j, (y, j) ∈ links → (y + φ (S.c j) + φ (S.c j), inv j) ∉ links →
      runWrites f (storesOf φ ⟨wr, rd'⟩ neumannByCopy inv (fun x i => f (loc φ x (wr i))) links) (loc φ (y + φ (S.c j)) (wr (inv j)))
        = f (loc φ y (wr (inv j))) := by
    intro y j hm hno
    apply runWrites_mem
    · exact mem_stores.2 ⟨y, j, hm, Or.inl (by rw [← hio]; rfl)⟩
    · intro kv hkv hk
      obtain ⟨z, i, hz, h | h⟩ := mem_stores.1 hkv
      · subst h
        simp only at hk
        rw [hio] at hk
        obtain ⟨h1, h2⟩ := loc_inj φ hwr hk
        have : i = j := by rw [← hinv2 i, h2, hinv2]
        subst this
        obtain rfl := add_right_cancel h1
        rfl
      · subst h
        simp only at hk
        obtain ⟨h1, h2⟩ := loc_inj φ hwr hk
        subst h2
        exfalso
        apply hno
        rw [hcinv, map_neg] at h1
        rw [← h1, neg_add_cancel_right]
        exact hz
  have key2 : ∀ y j, (y, j) ∈ links → (y + φ (S.c j) + φ (S.c j), inv j) ∉ links →
      runWrites f (storesOf φ ⟨wr, rd'⟩ neumannByCopy inv (fun x i => f (loc φ x (wr i))) links) (loc φ (y + φ (S.c j)) (wr j))
        = f (loc φ y (wr j)) := by
    intro y j hm hno
    apply runWrites_mem
    · exact mem_stores.2 ⟨y, j, hm, Or.inr rfl⟩
    · intro kv hkv hk
      obtain ⟨z, i, hz, h | h⟩ := mem_stores.1 hkv
      · subst h
        simp only at hk
        rw [hio] at hk
        obtain ⟨h1, h2⟩ := loc_inj φ hwr hk
        have : i = inv j := by rw [← hinv2 i, h2]
        subst this
        exfalso
        apply hno
        rw [hcinv, map_neg] at h1
        rw [← h1, neg_add_cancel_right]
        exact hz
      · subst h
        simp only at hk
        obtain ⟨h1, h2⟩ := loc_inj φ hwr hk
        subst h2
        obtain rfl := add_right_cancel h1
        rfl
  have key3 : ∀ x i, (∀ j, S.c i = -S.c j → (x + φ (S.c i), j) ∉ links) → (x - φ (S.c i), i) ∉ links →
      runWrites f (storesOf φ ⟨wr, rd'⟩ neumannByCopy inv (fun x i => f (loc φ x (wr i))) links) (loc φ x (wr i)) = f (loc φ x (wr i)) := by
    intro x i h1 h2
    apply runWrites_other
    intro kv hkv hk
    obtain ⟨z, j, hz, h | h⟩ := mem_stores.1 hkv
    · subst h
      simp only at hk
      rw [hio] at hk
      obtain ⟨rfl, rfl⟩ := loc_inj φ hwr hk
      apply h1 j (hcinv j)
      rw [hcinv, map_neg, add_neg_cancel_right]
      exact hz
    · subst h
      simp only at hk
      obtain ⟨rfl, rfl⟩ := loc_inj φ hwr hk
      apply h2
      rw [add_sub_cancel_right]
      exact hz
  refine ⟨_, _, _, _, _, he, hw _, hw _, hr _, hr _, ?_, key3, ?_⟩
  · intro y j j' hm hj hno
    obtain rfl := huniq hj
    refine ⟨?_, key1 y j hm hno, key2 y j hm hno⟩
    rw [hio]
    exact key1 y j hm hno
  · intro x i h1 h2
    have e : loc φ x (rd' i) = loc φ (x - φ (S.c i)) (wr i) := by
      have := hio x (inv i)
      rw [hinv2, hcinv, map_neg, ← sub_eq_add_neg] at this
      exact this
    simp only [e]
    apply key3
    · intro j hj
      rw [sub_add_cancel]
      exact h1 j hj
    · exact h2

/-- **C82 (order).**  Without links facing each other through one boundary node, neither the order of the index list nor repetitions in it
matter. -/
theorem C82_order (φ : Vec D →+ G) {S : Stencil D} {p : String} (hs : Supported S p) (hc : S.InvClosed) (t : ℕ) (fluid : Set G)
    (links links' : List (G × Fin S.Q)) (hl : ∀ l ∈ links, l.1 ∈ fluid ∧ l.1 + φ (S.c l.2) ∉ fluid) (heq : ∀ l, l ∈ links ↔ l ∈ links')
    (hthick : ∀ y j j', (y, j) ∈ links → S.c j' = -S.c j → (y + φ (S.c j) + φ (S.c j), j') ∉ links) (f : G × Fin S.Q → V) :
    pairHook φ S p neumannByCopy links t f = pairHook φ S p neumannByCopy links' t f := by
  have hl' : ∀ l ∈ links', l.1 ∈ fluid ∧ l.1 + φ (S.c l.2) ∉ fluid := fun l h => hl l ((heq l).2 h)
  obtain ⟨ts, h1, h2, h3⟩ := stepTimestep_spec hs.1 t
  obtain ⟨a, rd, wr, rd', F⟩ := stepFacts hs h2
  obtain ⟨inv, hidx, hcinv, hinv2, -⟩ := exists_inv hs.2.1 hc
  have hmk := make_spec hs hc h2 F
  simp only [pairHook, h1, hmk, Option.bind_eq_bind, Option.bind_some]
  rw [pairKernel_eq φ F hidx hcinv neumannByCopy neumann_local fluid links hl f f fun _ _ _ => rfl,
    pairKernel_eq φ F hidx hcinv neumannByCopy neumann_local fluid links' hl' f f fun _ _ _ => rfl]
  have hst : ∀ kv, kv ∈ storesOf φ ⟨wr, rd'⟩ neumannByCopy inv (fun x i => f (loc φ x (wr i))) links ↔
      kv ∈ storesOf φ ⟨wr, rd'⟩ neumannByCopy inv (fun x i => f (loc φ x (wr i))) links' := by
    intro kv
    simp only [mem_stores, heq]
  have hfun : ∀ kv ∈ storesOf φ ⟨wr, rd'⟩ neumannByCopy inv (fun x i => f (loc φ x (wr i))) links,
      ∀ kv' ∈ storesOf φ ⟨wr, rd'⟩ neumannByCopy inv (fun x i => f (loc φ x (wr i))) links, kv.1 = kv'.1 → kv.2 = kv'.2 := by
    have cross : ∀ y j z i, (y, j) ∈ links → (z, i) ∈ links → loc φ (y + φ (S.c j)) (wr (inv j)) ≠ loc φ (z + φ (S.c i)) (wr i) := by
      intro y j z i hy hz he
      obtain ⟨h1, rfl⟩ := loc_inj φ F.wr_inj he
      apply hthick y j (inv j) hy (hcinv j)
      rw [hcinv, map_neg] at h1
      rw [h1, neg_add_cancel_right]
      exact hz
    intro kv hkv kv' hkv' hk
    obtain ⟨y, j, hy, h | h⟩ := mem_stores.1 hkv <;> obtain ⟨z, i, hz, h' | h'⟩ := mem_stores.1 hkv' <;> subst h <;> subst h' <;>
      simp only [in_eq_out φ F hcinv] at hk
    · obtain ⟨e1, e2⟩ := loc_inj φ F.wr_inj hk
      have : j = i := by rw [← hinv2 j, e2, hinv2]
      subst this
      obtain rfl := add_right_cancel e1
      rfl
    · exact absurd hk (cross y j z i hy hz)
    · exact absurd hk.symm (cross z i y j hz hy)
    · obtain ⟨e1, rfl⟩ := loc_inj φ F.wr_inj hk
      obtain rfl := add_right_cancel e1
      rfl
  congr 1
  funext k
  by_cases hk : ∃ v, (k, v) ∈ storesOf φ ⟨wr, rd'⟩ neumannByCopy inv (fun x i => f (loc φ x (wr i))) links
  · obtain ⟨v, hv⟩ := hk
    rw [runWrites_mem _ _ k v hv fun kv hkv e => hfun kv hkv _ hv e,
      runWrites_mem _ _ k v ((hst _).1 hv) fun kv hkv e => hfun kv ((hst _).2 hkv) _ hv e]
  · have : ∀ kv ∈ storesOf φ ⟨wr, rd'⟩ neumannByCopy inv (fun x i => f (loc φ x (wr i))) links, kv.1 ≠ k := by
      rintro ⟨k', v⟩ hkv rfl
      exact hk ⟨v, hkv⟩
    rw [runWrites_other _ _ _ this, runWrites_other _ _ _ fun kv hkv => this kv ((hst _).2 hkv)]

/-- **C82 (thin walls).**  Two fluid cells facing each other through one boundary node race: the link processed last decides, for both of them,
what they read next. With the link of `y` first, `y` receives the population of the cell behind the wall and the other cell its own; with the
link of `y` last, the roles are exchanged. -/
theorem C82_thin_wall (φ : Vec D →+ G) {S : Stencil D} {p : String} (hs : Supported S p) (hc : S.InvClosed) (t : ℕ) (y : G)
    (j j' : Fin S.Q) (hj : S.c j' = -S.c j) (h1 : φ (S.c j) ≠ 0) (f : G × Fin S.Q → V) :
    ∃ f1 f2 w r1 r2, pairHook φ S p neumannByCopy [(y, j), (y + φ (S.c j) + φ (S.c j), j')] t f = some f1 ∧
      pairHook φ S p neumannByCopy [(y + φ (S.c j) + φ (S.c j), j'), (y, j)] t f = some f2 ∧
      writtenPops φ S p t f = some w ∧ readPops φ S p (t + 1) f1 = some r1 ∧ readPops φ S p (t + 1) f2 = some r2 ∧
      r1 y j' = w (y + φ (S.c j) + φ (S.c j)) j' ∧ r1 (y + φ (S.c j) + φ (S.c j)) j = w (y + φ (S.c j) + φ (S.c j)) j ∧
      r2 y j' = w y j' ∧ r2 (y + φ (S.c j) + φ (S.c j)) j = w y j := by
  have hl : ∀ l ∈ [(y, j), (y + φ (S.c j) + φ (S.c j), j')], IsLink φ S {z | z ≠ y + φ (S.c j)} l := by
    intro l hl
    simp only [List.mem_cons, List.not_mem_nil, or_false] at hl
    rcases hl with rfl | rfl
    · refine ⟨fun h => h1 ?_, fun h => h rfl⟩
      exact (left_eq_add.1 h)
    · refine ⟨fun h => h1 (add_eq_left.1 h), fun h => h ?_⟩
      simp only [hj, map_neg, add_neg_cancel_right]
  have hl2 : ∀ l ∈ [(y + φ (S.c j) + φ (S.c j), j'), (y, j)], IsLink φ S {z | z ≠ y + φ (S.c j)} l := by
    intro l h
    apply hl
    simp only [List.mem_cons, List.not_mem_nil, or_false] at h ⊢
    exact h.symm
  obtain ⟨ts, g1, g2, g3⟩ := stepTimestep_spec hs.1 t
  obtain ⟨a, rd, wr, rd', F⟩ := stepFacts hs g2
  obtain ⟨a', ha', hrd'⟩ := F.next
  obtain ⟨inv, hidx, hcinv, hinv2, -⟩ := exists_inv hs.2.1 hc
  have hmk := make_spec hs hc g2 F
  obtain rfl : j' = inv j := hs.2.1 (by rw [hj, hcinv])
  have hne : inv j ≠ j := by
    intro h
    apply h1
    have : S.c j = 0 := by
      have := hcinv j
      rw [h] at this
      funext d
      have := congrFun this d
      simp only [Pi.neg_apply, Pi.zero_apply] at *
      omega
    rw [this, map_zero]
  have k1 := pairKernel_eq φ F hidx hcinv neumannByCopy neumann_local _ _ hl f f fun _ _ _ => rfl
  have k2 := pairKernel_eq φ F hidx hcinv neumannByCopy neumann_local _ _ hl2 f f fun _ _ _ => rfl
  refine ⟨_, _, _, _, _, by simpa [pairHook, g1, hmk] using k1, by simpa [pairHook, g1, hmk] using k2,
    by simp [writtenPops, g1, F.acc, F.write]; rfl, by simp [readPops, g3, ha', hrd']; rfl, by simp [readPops, g3, ha', hrd']; rfl, ?_⟩
  have e1 : loc φ y (rd' (inv j)) = loc φ (y + φ (S.c j)) (wr (inv j)) := in_eq_out φ F hcinv y j
  have e2 : loc φ (y + φ (S.c j) + φ (S.c j)) (rd' j) = loc φ (y + φ (S.c j)) (wr j) := (loc_wr φ F _ j).symm
  have e3 : y + φ (S.c j) + φ (S.c j) + φ (S.c (inv j)) = y + φ (S.c j) := by rw [hcinv, map_neg, add_neg_cancel_right]
  have d1 : loc φ (y + φ (S.c j)) (wr j) ≠ loc φ (y + φ (S.c j)) (wr (inv j)) := by
    intro h
    exact hne (loc_inj φ F.wr_inj h).2.symm
  simp only [e1, e2, storesOf, List.flatMap_cons, List.flatMap_nil, List.append_nil, List.cons_append, List.nil_append, runWrites,
    List.foldl_cons, List.foldl_nil, hinv2, e3, neumannByCopy]
  refine ⟨?_, ?_, ?_, ?_⟩
  · rw [Function.update_self]
  · rw [Function.update_of_ne d1, Function.update_self]
  · rw [Function.update_of_ne d1.symm, Function.update_self]
  · rw [Function.update_self]

/-- **C82 (constant).**  After `StreamInConstant`, every linked cell reads next the constant for the reversed link direction and the boundary
node carries it in both directions along the link, whatever the order of the links and whether or not links face each other. -/
theorem C82_constant (φ : Vec D →+ G) {S : Stencil D} {p : String} (hs : Supported S p) (hc : S.InvClosed) (t : ℕ) (fluid : Set G)
    (links : List (G × Fin S.Q)) (hl : ∀ l ∈ links, l.1 ∈ fluid ∧ l.1 + φ (S.c l.2) ∉ fluid) (v : V) (f : G × Fin S.Q → V) :
    ∃ f' w w' r', pairHook φ S p (streamInConstant v) links t f = some f' ∧ writtenPops φ S p t f = some w ∧
      writtenPops φ S p t f' = some w' ∧ readPops φ S p (t + 1) f' = some r' ∧
      (∀ y j j', (y, j) ∈ links → S.c j' = -S.c j → r' y j' = v ∧ w' (y + φ (S.c j)) j' = v ∧ w' (y + φ (S.c j)) j = v) ∧
      (∀ x i, (∀ j, S.c i = -S.c j → (x + φ (S.c i), j) ∉ links) → (x - φ (S.c i), i) ∉ links → w' x i = w x i) := by
  obtain ⟨inv, wr, rd', hcinv, hwr, hrd, hio, hw, hr, he⟩ := pairHook_eq φ hs hc t (streamInConstant v) (constant_local v) fluid links hl f
  have huniq : ∀ {j j'}, S.c j' = -S.c j → j' = inv j := fun {j j'} h => hs.2.1 (by rw [h, hcinv])
  have hval : ∀ kv ∈ storesOf φ ⟨wr, rd'⟩ (streamInConstant v) inv (fun x i => f (loc φ x (wr i))) links, kv.2 = v := by
    intro kv hkv
    obtain ⟨z, i, -, rfl | rfl⟩ := mem_stores.1 hkv <;> rfl
  refine ⟨_, _, _, _, he, hw _, hw _, hr _, ?_, ?_⟩
  · intro y j j' hm hj
    obtain rfl := huniq hj
    have a1 : runWrites f (storesOf φ ⟨wr, rd'⟩ (streamInConstant v) inv (fun x i => f (loc φ x (wr i))) links)
        (loc φ y (rd' (inv j))) = v :=
      runWrites_mem _ _ _ v (mem_stores.2 ⟨y, j, hm, Or.inl rfl⟩) fun kv hkv _ => hval kv hkv
    refine ⟨a1, ?_, ?_⟩
    · rw [← hio]
      exact a1
    · exact runWrites_mem _ _ _ v (mem_stores.2 ⟨y, j, hm, Or.inr rfl⟩) fun kv hkv _ => hval kv hkv
  · intro x i h1 h2
    apply runWrites_other
    intro kv hkv hk
    obtain ⟨z, j, hz, h | h⟩ := mem_stores.1 hkv
    · subst h
      simp only at hk
      rw [hio] at hk
      obtain ⟨rfl, rfl⟩ := loc_inj φ hwr hk
      apply h1 j (hcinv j)
      rw [hcinv, map_neg, add_neg_cancel_right]
      exact hz
    · subst h
      simp only at hk
      obtain ⟨rfl, rfl⟩ := loc_inj φ hwr hk
      apply h2
      rw [add_sub_cancel_right]
      exact hz

/-- **C82 (halo).**  In the push pattern the store to the boundary node goes to the cell two steps away from the fluid cell, in the pull
pattern to the boundary node: with push, one ghost layer does not suffice. -/
theorem C82_halo (φ : Vec D →+ G) {S : Stencil D} (hv : S.Valid) (hc : S.InvClosed) (v : V) (y : G) (j : Fin S.Q)
    (f : G × Fin S.Q → V) : ∃ j', S.c j' = -S.c j ∧
      pairHook φ S "pull" (streamInConstant v) [(y, j)] 0 f =
        some (Function.update (Function.update f (y + φ (S.c j), j') v) (y + φ (S.c j), j) v) ∧
      pairHook φ S "push" (streamInConstant v) [(y, j)] 0 f =
        some (Function.update (Function.update f (y, j') v) (y + φ (S.c j) + φ (S.c j), j) v) := by
  obtain ⟨inv, hidx, hcinv, -, -⟩ := exists_inv hv hc
  have hcol : collect (Indexing.inverseDirIndex S) = some inv := collect_eq_some.2 fun i => hidx i
  have hj : Indexing.inverseDirIndex S j = some (inv j) := hidx j
  have a1 : (pull : Accessor D).write S = some fun i => (0, i) := collect_eq_some.2 fun _ => rfl
  have a2 : (push : Accessor D).write S = some fun i => (S.c i, i) := collect_eq_some.2 fun _ => rfl
  have a3 : (push : Accessor D).read S = some fun i => (0, i) := collect_eq_some.2 fun _ => rfl
  have m1 : Indexing.make S "pull" .both = some ⟨fun i => (0, i), fun i => (-S.c i, i)⟩ := by
    have e1 : isInplace "pull" = some false := by rfl
    have e2 : getAccessor D "pull" .both = some pull := by rfl
    unfold Indexing.make
    simp only [e1, Option.bind_eq_bind, Option.bind_some]
    rw [if_neg (by simp)]
    simp [e2, Timestep.next, a1, pull_read, hcol]
  have m2 : Indexing.make S "push" .both = some ⟨fun i => (S.c i, i), fun i => (0, i)⟩ := by
    have e1 : isInplace "push" = some false := by rfl
    have e2 : getAccessor D "push" .both = some push := by rfl
    unfold Indexing.make
    simp only [e1, Option.bind_eq_bind, Option.bind_some]
    rw [if_neg (by simp)]
    simp [e2, Timestep.next, a2, a3, hcol]
  have t1 : stepTimestep "pull" 0 = some .both := by rfl
  have t2 : stepTimestep "push" 0 = some .both := by rfl
  refine ⟨inv j, hcinv j, ?_, ?_⟩
  · simp only [pairHook, t1, m1, pairKernel, hj, Option.bind_eq_bind, Option.bind_some, loc, hcinv, neg_neg, map_zero, add_zero]
    rfl
  · simp only [pairHook, t2, m2, pairKernel, hj, Option.bind_eq_bind, Option.bind_some, loc, hcinv, neg_neg, map_zero, add_zero]
    rfl

/-- A 4 × 3 torus with the walls `x = 0`: thick enough in `x` direction as there are three fluid columns. -/
example : let fluid : Set (ZMod 4 × ZMod 3) := {x | x.1 ≠ 0}
    let links := [((3, 0), (⟨4, by decide⟩ : Fin exStencil.Q)), ((1, 1), ⟨3, by decide⟩)]
    (∀ l ∈ links, l.1 ∈ fluid ∧ l.1 + exTorus (exStencil.c l.2) ∉ fluid) ∧
    ∀ l ∈ links, ∀ j', exStencil.c j' = -exStencil.c l.2 → (l.1 + exTorus (exStencil.c l.2) + exTorus (exStencil.c l.2), j') ∉ links := by
  intro fluid links
  constructor
  · show ∀ l ∈ links, l.1.1 ≠ 0 ∧ ¬ (l.1 + exTorus (exStencil.c l.2)).1 ≠ 0
    decide +kernel
  · decide +kernel

end CopyBoundaries
end Lbm
