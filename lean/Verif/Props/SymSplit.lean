/-
C37: splitting of the post-collision assignments into symmetric and antisymmetric parts preserves all values.
-/
import Verif.SymSplit
import Mathlib.Algebra.Ring.CharZero
import Mathlib.Tactic.FieldSimp
import Mathlib.Tactic.Ring
import Mathlib.Algebra.Field.Rat

namespace Lbm

namespace SymSplit

variable {E K : Type} [DecidableEq E] [Field K] {D : ℕ}

/-! ### Dictionaries -/

theorem get_set (d : Asms E) (k : ℕ) (v : E) (x : ℕ) : get (set d k v) x = if k = x then some v else get d x := by
  induction d with
  | nil => simp [set, get]
  | cons p d ih =>
    obtain ⟨y, e⟩ := p
    simp only [set]
    split
    · rename_i h; subst h
      by_cases hx : y = x <;> simp [get, hx]
    · rename_i h
      simp only [get, ih]
      by_cases hx : y = x
      · subst hx
        have h' : ¬ k = y := fun e => h e.symm
        simp [h']
      · simp [hx]

theorem keys_set (d : Asms E) (k : ℕ) (v : E) (h : (get d k).isSome) : (set d k v).map Prod.fst = d.map Prod.fst := by
  induction d with
  | nil => simp [get] at h
  | cons p d ih =>
    obtain ⟨y, e⟩ := p
    simp only [set]
    split
    · simp
    · rename_i hk
      simp only [get, if_neg hk] at h
      simp [ih h]

theorem keys_set_nodup (d : Asms E) (k : ℕ) (v : E) (h : (d.map Prod.fst).Nodup) :
    ((set d k v).map Prod.fst).Nodup ∧ ∀ x, x ∈ (set d k v).map Prod.fst → x = k ∨ x ∈ d.map Prod.fst := by
  induction d with
  | nil => simp [set]
  | cons p d ih =>
    obtain ⟨y, e⟩ := p
    simp only [List.map_cons, List.nodup_cons] at h
    obtain ⟨ih1, ih2⟩ := ih h.2
    simp only [set]
    split
    · simp only [List.map_cons, List.nodup_cons]
      exact ⟨h, fun x hx => Or.inr hx⟩
    · rename_i hk
      simp only [List.map_cons, List.nodup_cons, List.mem_cons]
      refine ⟨⟨fun hy => ?_, ih1⟩, ?_⟩
      · rcases ih2 y hy with h' | h'
        · exact hk h'
        · exact h.1 h'
      · rintro x (rfl | hx)
        · exact Or.inr (Or.inl rfl)
        · exact (ih2 x hx).imp_right Or.inr

theorem get_mem (d : Asms E) (k : ℕ) (e : E) (h : get d k = some e) : (k, e) ∈ d := by
  induction d with
  | nil => simp [get] at h
  | cons p d ih =>
    obtain ⟨y, e'⟩ := p
    simp only [get] at h
    split at h
    · rename_i hk; subst hk; injection h with h; subst h; simp
    · exact List.mem_cons_of_mem _ (ih h)

theorem get_of_mem (d : Asms E) (hn : (d.map Prod.fst).Nodup) (p : ℕ × E) (h : p ∈ d) : get d p.1 = some p.2 := by
  induction d with
  | nil => cases h
  | cons q d ih =>
    simp only [List.map_cons, List.nodup_cons] at hn
    rcases List.mem_cons.mp h with rfl | h
    · simp [get]
    · have : q.1 ≠ p.1 := fun e => hn.1 (e ▸ List.mem_map_of_mem h)
      simp only [get, if_neg this]
      exact ih hn.2 h

/-- the last assignment to a symbol -/
def lastGet : Asms E → ℕ → Option E
  | [], _ => none
  | (x, e) :: l, k => (lastGet l k).or (if x = k then some e else none)

theorem toDict_get (l : Asms E) (x : ℕ) : get (toDict l) x = lastGet l x := by
  have key : ∀ (l d : Asms E), get (l.foldl (fun d p => set d p.1 p.2) d) x = (lastGet l x).or (get d x) := by
    intro l
    induction l with
    | nil => intro d; simp [lastGet]
    | cons p l ih =>
      intro d
      rw [List.foldl_cons, ih, get_set, lastGet]
      cases lastGet l x with
      | some e => simp
      | none => by_cases h : p.1 = x <;> simp [h]
  have := key l []
  rw [get, Option.or_none] at this
  exact this

theorem toDict_nodup (l : Asms E) : ((toDict l).map Prod.fst).Nodup ∧ ∀ x ∈ (toDict l).map Prod.fst, x ∈ l.map Prod.fst := by
  have key : ∀ (l d : Asms E), (d.map Prod.fst).Nodup → ((l.foldl (fun d p => set d p.1 p.2) d).map Prod.fst).Nodup ∧
      ∀ x ∈ (l.foldl (fun d p => set d p.1 p.2) d).map Prod.fst, x ∈ d.map Prod.fst ∨ x ∈ l.map Prod.fst := by
    intro l
    induction l with
    | nil => intro d h; exact ⟨h, fun x hx => Or.inl hx⟩
    | cons p l ih =>
      intro d h
      obtain ⟨h1, h2⟩ := keys_set_nodup d p.1 p.2 h
      obtain ⟨h3, h4⟩ := ih _ h1
      refine ⟨h3, fun x hx => ?_⟩
      rcases h4 x hx with h' | h'
      · rcases h2 x h' with rfl | h''
        · exact Or.inr (by simp)
        · exact Or.inl h''
      · exact Or.inr (by simp only [List.map_cons, List.mem_cons]; exact Or.inr h')
  have := key l [] (by simp)
  refine ⟨this.1, fun x hx => ?_⟩
  rcases this.2 x hx with h | h
  · simp at h
  · exact h

theorem lastGet_mem (l : Asms E) (k : ℕ) (e : E) (h : lastGet l k = some e) : (k, e) ∈ l := by
  induction l with
  | nil => simp [lastGet] at h
  | cons p l ih =>
    obtain ⟨y, e'⟩ := p
    simp only [lastGet] at h
    cases hl : lastGet l k with
    | some e'' =>
      rw [hl] at h
      simp only [Option.some_or, Option.some.injEq] at h
      subst h
      exact List.mem_cons_of_mem _ (ih hl)
    | none =>
      rw [hl] at h
      by_cases hk : y = k
      · simp only [hk, if_true, Option.none_or, Option.some.injEq] at h
        subst h; subst hk; simp
      · simp [hk] at h

theorem lastGet_isSome (l : Asms E) (k : ℕ) : (lastGet l k).isSome ↔ k ∈ l.map Prod.fst := by
  induction l with
  | nil => simp [lastGet]
  | cons p l ih =>
    obtain ⟨y, e'⟩ := p
    simp only [lastGet, Option.isSome_or, Bool.or_eq_true, ih, List.map_cons, List.mem_cons]
    by_cases hk : y = k
    · simp [hk]
    · have : ¬ k = y := fun e => hk e.symm
      simp [hk, this]

theorem lastGet_eq_get (l : Asms E) (h : (l.map Prod.fst).Nodup) (k : ℕ) : lastGet l k = get l k := by
  induction l with
  | nil => rfl
  | cons p l ih =>
    obtain ⟨y, e'⟩ := p
    simp only [List.map_cons, List.nodup_cons] at h
    simp only [lastGet, get, ih h.2]
    by_cases hk : y = k
    · subst hk
      have : lastGet l y = none := by
        cases hl : lastGet l y with
        | none => rfl
        | some e => exact absurd ((lastGet_isSome l y).mp (by simp [hl])) h.1
      rw [← ih h.2, this]; simp
    · cases get l k <;> simp [hk]

/-! ### Execution -/

/-- assignments whose right-hand sides read no assigned symbol can be executed at once -/
theorem exec_parallel (A : Alg E K) (l : Asms E) (N : Set ℕ) (hN : ∀ p ∈ l, p.1 ∈ N) (hr : ∀ p ∈ l, ∀ x ∈ A.vars p.2, x ∉ N)
    (ρ0 : ℕ → K) : ∀ ρ, (∀ x, x ∉ N → ρ x = ρ0 x) → ∀ x, exec A l ρ x =
      match lastGet l x with
      | some e => A.eval ρ0 e
      | none => ρ x := by
  induction l with
  | nil => intro ρ _ x; rfl
  | cons p l ih =>
    intro ρ hρ x
    have he : A.eval ρ p.2 = A.eval ρ0 p.2 := A.eval_congr _ _ _ fun y hy => hρ y (hr p (by simp) y hy)
    have := ih (fun q hq => hN q (by simp [hq])) (fun q hq => hr q (by simp [hq])) (Function.update ρ p.1 (A.eval ρ p.2))
      (fun y hy => by
        have hne : y ≠ p.1 := fun e => hy (by rw [e]; exact hN p (by simp))
        rw [Function.update_of_ne hne]
        exact hρ y hy) x
    rw [exec, List.foldl_cons]
    rw [exec] at this
    rw [this]
    simp only [lastGet]
    cases lastGet l x with
    | some e => simp
    | none =>
      by_cases hx : p.1 = x
      · subst hx; simp [he]
      · have hx' : ¬ x = p.1 := fun e => hx e.symm
        simp [hx, hx']

/-- each symbol is assigned once and not read by its own or an earlier right-hand side -/
def Ordered (A : Alg E K) : Asms E → Prop
  | [] => True
  | (x, e) :: l => x ∉ l.map Prod.fst ∧ x ∉ A.vars e ∧ (∀ y ∈ l.map Prod.fst, y ∉ A.vars e) ∧ Ordered A l

theorem Ordered.append (A : Alg E K) (l : Asms E) (x : ℕ) (e : E) (h : Ordered A l) (hx : x ∉ l.map Prod.fst)
    (he : x ∉ A.vars e) (hl : ∀ p ∈ l, x ∉ A.vars p.2) : Ordered A (l ++ [(x, e)]) := by
  induction l with
  | nil => simpa [Ordered] using he
  | cons p l ih =>
    obtain ⟨y, e'⟩ := p
    obtain ⟨h1, h2, h3, h4⟩ := h
    simp only [List.map_cons, List.mem_cons, not_or] at hx
    simp only [List.cons_append, Ordered, List.map_append, List.map_cons, List.map_nil, List.mem_append, List.mem_singleton, not_or]
    refine ⟨⟨h1, fun e => hx.1 e.symm⟩, h2, ?_, ih h4 hx.2 fun p hp => hl p (by simp [hp])⟩
    rintro z (hz | rfl)
    · exact h3 z hz
    · exact hl (y, e') (by simp)

theorem exec_other (A : Alg E K) (l : Asms E) (ρ : ℕ → K) (x : ℕ) (h : x ∉ l.map Prod.fst) : exec A l ρ x = ρ x := by
  induction l generalizing ρ with
  | nil => rfl
  | cons p l ih =>
    simp only [List.map_cons, List.mem_cons, not_or] at h
    rw [exec, List.foldl_cons]
    rw [← exec, ih _ h.2, Function.update_of_ne h.1]

theorem exec_ordered (A : Alg E K) (l : Asms E) (h : Ordered A l) (ρ : ℕ → K) :
    ∀ p ∈ l, exec A l ρ p.1 = A.eval (exec A l ρ) p.2 := by
  induction l generalizing ρ with
  | nil => intro p hp; cases hp
  | cons q l ih =>
    obtain ⟨y, e⟩ := q
    obtain ⟨h1, h2, h3, h4⟩ := h
    intro p hp
    have hstep : exec A ((y, e) :: l) ρ = exec A l (Function.update ρ y (A.eval ρ e)) := rfl
    rw [hstep]
    rcases List.mem_cons.mp hp with rfl | hp
    · rw [exec_other A l _ y h1, Function.update_self]
      refine A.eval_congr _ _ _ fun x hx => ?_
      have hxy : x ≠ y := fun e => h2 (e ▸ hx)
      rw [exec_other A l _ x (fun hm => h3 x hm hx), Function.update_of_ne hxy]
    · exact ih h4 _ p hp

/-! ### The loop -/

/-- symbols the generator has not yet produced are not used -/
structure Inv (A : Alg E K) (gen : ℕ → ℕ) (ctr0 : ℕ) (d0 : Asms E) (s : St E) : Prop where
  ordered : Ordered A (s.subs.map fun p => (p.2, p.1))
  fresh_vars : ∀ k, s.ctr ≤ k → ∀ p ∈ s.subs, gen k ∉ A.vars p.1
  fresh_lhs : ∀ k, s.ctr ≤ k → ∀ p ∈ s.subs, p.2 ≠ gen k
  lhs : ∀ p ∈ s.subs, ∃ k, ctr0 ≤ k ∧ p.2 = gen k
  asm_vars : ∀ x e, get s.asm x = some e → ∀ k, s.ctr ≤ k → gen k ∉ A.vars e
  ctr : ctr0 ≤ s.ctr
  keys : s.asm.map Prod.fst = d0.map Prod.fst
  value : ∀ σ : ℕ → K, (∀ p ∈ s.subs, σ p.2 = A.eval σ p.1) →
    ∀ x, (get s.asm x).map (A.eval σ) = (get d0 x).map (A.eval σ)
  asm_own : ∀ x e, get s.asm x = some e → ∀ y ∈ A.vars e, (∃ p ∈ s.subs, p.2 = y) ∨ ∃ z e0, get d0 z = some e0 ∧ y ∈ A.vars e0

theorem symbolFor_spec (A : Alg E K) (gen : ℕ → ℕ) (hg : Function.Injective gen) (ctr0 : ℕ) (d0 : Asms E) (s : St E)
    (h : Inv A gen ctr0 d0 s) (e : E) (he : ∀ k, s.ctr ≤ k → gen k ∉ A.vars e) :
    Inv A gen ctr0 d0 (symbolFor gen s e).2 ∧ (e, (symbolFor gen s e).1) ∈ (symbolFor gen s e).2.subs ∧
      (symbolFor gen s e).2.asm = s.asm ∧ (symbolFor gen s e).2.done = s.done ∧ s.ctr ≤ (symbolFor gen s e).2.ctr ∧
      (∀ p ∈ s.subs, p ∈ (symbolFor gen s e).2.subs) ∧
      ∃ k, k < (symbolFor gen s e).2.ctr ∧ (symbolFor gen s e).1 = gen k := by
  unfold symbolFor
  cases hf : s.subs.find? (fun p => p.1 == e) with
  | some p =>
    have hm := List.mem_of_find?_eq_some hf
    have hp : p.1 = e := by simpa using List.find?_some hf
    refine ⟨h, by rw [← hp]; exact hm, rfl, rfl, le_rfl, fun _ h => h, ?_⟩
    obtain ⟨k, _, hk⟩ := h.lhs p hm
    refine ⟨k, ?_, hk⟩
    by_contra hlt
    exact h.fresh_lhs k (not_lt.mp hlt) p hm hk
  | none =>
    refine ⟨⟨?_, ?_, ?_, ?_, ?_, ?_, h.keys, ?_, ?_⟩, by simp, rfl, rfl, by simp, fun p hp => by simp [hp],
      ⟨s.ctr, by simp, rfl⟩⟩
    · simp only [List.map_append, List.map_cons, List.map_nil]
      refine Ordered.append A _ _ _ h.ordered ?_ (he _ le_rfl) ?_
      · simp only [List.map_map, List.mem_map, Function.comp]
        rintro ⟨p, hp, hpe⟩
        exact h.fresh_lhs _ le_rfl p hp hpe
      · simp only [List.mem_map]
        rintro _ ⟨p, hp, rfl⟩
        exact h.fresh_vars _ le_rfl p hp
    · intro k hk p hp
      rcases List.mem_append.mp hp with hp | hp
      · exact h.fresh_vars k (by simp at hk; omega) p hp
      · rw [List.mem_singleton] at hp; subst hp; exact he k (by simp at hk; omega)
    · intro k hk p hp
      rcases List.mem_append.mp hp with hp | hp
      · exact h.fresh_lhs k (by simp at hk; omega) p hp
      · rw [List.mem_singleton] at hp; subst hp
        intro heq
        have := hg heq
        simp at hk; omega
    · intro p hp
      rcases List.mem_append.mp hp with hp | hp
      · exact h.lhs p hp
      · rw [List.mem_singleton] at hp; subst hp; exact ⟨_, h.ctr, rfl⟩
    · intro x e' hx k hk
      exact h.asm_vars x e' hx k (by simp at hk; omega)
    · simp only; have := h.ctr; omega
    · intro σ hσ x
      exact h.value σ (fun p hp => hσ p (by simp [hp])) x
    · intro x e' hx y hy
      rcases h.asm_own x e' hx y hy with ⟨p, hp, rfl⟩ | h'
      · exact Or.inl ⟨p, by simp [hp], rfl⟩
      · exact Or.inr h'

theorem splitPair_inv [CharZero K] (A : Alg E K) (gen : ℕ → ℕ) (hg : Function.Injective gen) (ctr0 : ℕ) (d0 : Asms E)
    (s s' : St E) (h : Inv A gen ctr0 d0 s) (f fInv : ℕ) (hs : splitPair A gen s f fInv = .ok s') :
    Inv A gen ctr0 d0 s' ∧ s'.done = s.done := by
  unfold splitPair at hs
  cases hf : get s.asm f with
  | none => simp [hf] at hs
  | some a =>
    cases hfi : get s.asm fInv with
    | none => simp [hf, hfi] at hs
    | some b =>
      simp only [hf, hfi] at hs
      have hva := h.asm_vars f a hf
      have hvb := h.asm_vars fInv b hfi
      have hv1 : ∀ k, s.ctr ≤ k → gen k ∉ A.vars (A.half (A.add a b)) := fun k hk hm => by
        rcases A.vars_add _ _ (A.vars_half _ hm) with h' | h'
        · exact hva k hk h'
        · exact hvb k hk h'
      obtain ⟨i1, m1, a1, dn1, c1, p1, k1, hk1, e1⟩ := symbolFor_spec A gen hg ctr0 d0 s h _ hv1
      set s1 := (symbolFor gen s (A.half (A.add a b))).2 with hs1
      set x1 := (symbolFor gen s (A.half (A.add a b))).1 with hx1
      have hv2 : ∀ k, s1.ctr ≤ k → gen k ∉ A.vars (A.half (A.sub a b)) := fun k hk hm => by
        rcases A.vars_sub _ _ (A.vars_half _ hm) with h' | h'
        · exact hva k (by omega) h'
        · exact hvb k (by omega) h'
      obtain ⟨i2, m2, a2, dn2, c2, p2, k2, hk2, e2⟩ := symbolFor_spec A gen hg ctr0 d0 s1 i1 _ hv2
      set s2 := (symbolFor gen s1 (A.half (A.sub a b))).2 with hs2
      set x2 := (symbolFor gen s1 (A.half (A.sub a b))).1 with hx2
      have hm1 := p2 _ m1
      injection hs with hs
      subst hs
      have hg2 : get s2.asm = get s.asm := by rw [a2, a1]
      refine ⟨⟨i2.ordered, i2.fresh_vars, i2.fresh_lhs, i2.lhs, ?_, i2.ctr, ?_, ?_, ?_⟩, by simp only; rw [dn2, dn1]⟩
      · intro x e hx k hk
        simp only at hx hk
        have hne1 : gen k ≠ x1 := by rw [e1]; intro heq; have := hg heq; omega
        have hne2 : gen k ≠ x2 := by rw [e2]; intro heq; have := hg heq; omega
        rw [get_set, get_set] at hx
        split at hx
        · injection hx with hx; subst hx
          intro hm
          rcases A.vars_sub _ _ hm with h' | h'
          · exact hne1 (A.vars_sym _ h')
          · exact hne2 (A.vars_sym _ h')
        · split at hx
          · injection hx with hx; subst hx
            intro hm
            rcases A.vars_add _ _ hm with h' | h'
            · exact hne1 (A.vars_sym _ h')
            · exact hne2 (A.vars_sym _ h')
          · exact i2.asm_vars x e hx k hk
      · simp only
        rw [keys_set, keys_set, i2.keys]
        · rw [hg2, hf]; rfl
        · rw [get_set, hg2]; split <;> simp [hfi]
      · intro σ hσ x
        simp only at hσ
        have hbase := i2.value σ hσ
        rw [hg2] at hbase
        have hv : σ x1 = (A.eval σ a + A.eval σ b) / 2 := by
          rw [hσ _ hm1, A.eval_half, A.eval_add]
        have hw : σ x2 = (A.eval σ a - A.eval σ b) / 2 := by
          rw [hσ _ m2, A.eval_half, A.eval_sub]
        have htwo : (2 : K) ≠ 0 := two_ne_zero
        simp only
        rw [get_set, get_set, hg2]
        split
        · rename_i hx; subst hx
          rw [← hbase, hfi]
          simp only [Option.map_some, A.eval_sub, A.eval_sym, hv, hw]
          congr 1; field_simp; ring
        · split
          · rename_i hx; subst hx
            rw [← hbase, hf]
            simp only [Option.map_some, A.eval_add, A.eval_sym, hv, hw]
            congr 1; field_simp; ring
          · exact hbase x
      · intro x e hx y hy
        simp only at hx
        rw [get_set, get_set] at hx
        have hsy : ∀ y, y ∈ A.vars (A.sym x1) ∪ A.vars (A.sym x2) → ∃ p ∈ s2.subs, p.2 = y := by
          rintro y (h' | h')
          · exact ⟨_, hm1, (A.vars_sym _ h').symm⟩
          · exact ⟨_, m2, (A.vars_sym _ h').symm⟩
        split at hx
        · injection hx with hx; subst hx
          exact Or.inl (hsy y (A.vars_sub _ _ hy))
        · split at hx
          · injection hx with hx; subst hx
            exact Or.inl (hsy y (A.vars_add _ _ hy))
          · exact i2.asm_own x e hx y hy

theorem splitLoop_inv [CharZero K] (A : Alg E K) (gen : ℕ → ℕ) (hg : Function.Injective gen) (ctr0 : ℕ) (d0 : Asms E)
    (S : Stencil D) (pdf fs : List ℕ) : ∀ (s s' : St E) (i : ℕ), Inv A gen ctr0 d0 s →
      splitLoop A gen S pdf s i fs = .ok s' → Inv A gen ctr0 d0 s' := by
  induction fs with
  | nil => intro s s' i h hs; simp only [splitLoop] at hs; injection hs with hs; subst hs; exact h
  | cons f fs ih =>
    intro s s' i h hs
    simp only [splitLoop] at hs
    cases hst : splitStep A gen S pdf s i f with
    | error e => simp [hst] at hs
    | ok s1 =>
      simp only [hst] at hs
      refine ih s1 s' (i + 1) ?_ hs
      unfold splitStep at hst
      split at hst
      · injection hst with hst; subst hst; exact h
      · split at hst
        · rename_i hi
          split at hst
          · injection hst with hst; subst hst; exact h
          · cases hj : S.index (-S.c ⟨i, hi⟩) with
            | none => simp [hj] at hst
            | some j =>
              simp only [hj] at hst
              cases hp : pdf[j.val]? with
              | none => simp [hp] at hst
              | some fInv =>
                simp only [hp] at hst
                refine (splitPair_inv A gen hg ctr0 d0 _ s1 ?_ f fInv hst).1
                exact ⟨h.ordered, h.fresh_vars, h.fresh_lhs, h.lhs, h.asm_vars, h.ctr, h.keys, h.value, h.asm_own⟩
        · simp at hst

/-! ### C37 -/

/-- The symbols the generator will produce are distinct and occur nowhere in the collection. -/
structure Fresh (A : Alg E K) (gen : ℕ → ℕ) (ac : AC E) : Prop where
  injective : Function.Injective gen
  sub_lhs : ∀ k, ac.ctr ≤ k → ∀ p ∈ ac.subexpressions, p.1 ≠ gen k
  sub_rhs : ∀ k, ac.ctr ≤ k → ∀ p ∈ ac.subexpressions, gen k ∉ A.vars p.2
  main_lhs : ∀ k, ac.ctr ≤ k → ∀ p ∈ ac.main, p.1 ≠ gen k
  main_rhs : ∀ k, ac.ctr ≤ k → ∀ p ∈ ac.main, gen k ∉ A.vars p.2

/-- no main assignment reads a symbol assigned by a main assignment -/
def Independent (A : Alg E K) (l : Asms E) : Prop := ∀ p ∈ l, ∀ x ∈ A.vars p.2, x ∉ l.map Prod.fst

theorem inv_start (A : Alg E K) (gen : ℕ → ℕ) (ac : AC E) (hf : Fresh A gen ac) :
    Inv A gen ac.ctr (toDict ac.main) { asm := toDict ac.main, done := [], subs := [], ctr := ac.ctr } := by
  refine ⟨trivial, fun k _ p hp => absurd hp (by simp), fun k _ p hp => absurd hp (by simp),
    fun p hp => absurd hp (by simp), ?_, le_rfl, rfl, fun σ _ x => rfl, fun x e hx y hy => Or.inr ⟨x, e, hx, hy⟩⟩
  intro x e hx k hk
  simp only at hx
  rw [toDict_get] at hx
  exact hf.main_rhs k hk _ (lastGet_mem _ _ _ hx)

/-- C37. If the function returns, executing the new collection gives every symbol that is not one of the newly generated
ones the same value as executing the original one: for every stencil, list of symbols, set of assignments and every
environment. The collection passed in, whose list of subexpressions is extended in place, keeps its values too. -/
theorem C37_values [CharZero K] (A : Alg E K) (gen : ℕ → ℕ) (stencil : Option (Stencil D)) (pdf : Option (List ℕ)) (ac : AC E)
    (new old : AC E) (hf : Fresh A gen ac) (hi : Independent A ac.main) (h : split A gen stencil pdf ac = .ok (new, old))
    (ρ : ℕ → K) (x : ℕ) (hx : ∀ k, ac.ctr ≤ k → x ≠ gen k) :
    new.run A ρ x = ac.run A ρ x ∧ old.run A ρ x = ac.run A ρ x := by
  unfold split at h
  match stencil, pdf, h with
  | some S, some pdf, h =>
    simp only at h
    cases hl : splitLoop A gen S pdf { asm := toDict ac.main, done := [], subs := [], ctr := ac.ctr } 0 pdf with
    | error e => simp [hl] at h
    | ok s =>
      simp only [hl, Except.ok.injEq, Prod.mk.injEq] at h
      obtain ⟨rfl, rfl⟩ := h
      have hinv := splitLoop_inv A gen hf.injective ac.ctr (toDict ac.main) S pdf pdf _ s 0 (inv_start A gen ac hf) hl
      obtain ⟨hnd, hkeys⟩ := toDict_nodup ac.main
      set N : Set ℕ := {x | x ∈ ac.main.map Prod.fst} with hN
      set σ0 := exec A ac.subexpressions ρ with hσ0
      set σ1 := exec A (s.subs.map fun p => (p.2, p.1)) σ0 with hσ1
      have hσ : exec A (ac.subexpressions ++ s.subs.map fun p => (p.2, p.1)) ρ = σ1 := by
        simp only [exec, List.foldl_append, hσ1, hσ0]
      have hsat : ∀ p ∈ s.subs, σ1 p.2 = A.eval σ1 p.1 := by
        intro p hp
        exact exec_ordered A _ hinv.ordered σ0 (p.2, p.1) (List.mem_map_of_mem (f := fun p : E × ℕ => (p.2, p.1)) hp)
      have hother : ∀ y, (∀ k, ac.ctr ≤ k → y ≠ gen k) → σ1 y = σ0 y := by
        intro y hy
        refine exec_other A _ _ y ?_
        simp only [List.map_map, List.mem_map, Function.comp, not_exists, not_and]
        intro p hp hpy
        obtain ⟨k, hk, hk'⟩ := hinv.lhs p hp
        exact hy k hk (by rw [← hpy, hk'])
      -- the original main assignments do not read fresh symbols
      have hmainval : ∀ y e, lastGet ac.main y = some e → A.eval σ1 e = A.eval σ0 e := by
        intro y e he
        refine A.eval_congr _ _ _ fun z hz => hother z fun k hk hzk => ?_
        exact hf.main_rhs k hk _ (lastGet_mem _ _ _ he) (hzk ▸ hz)
      have horig : exec A ac.main σ0 x = match lastGet ac.main x with | some e => A.eval σ0 e | none => σ0 x :=
        exec_parallel A ac.main N (fun p hp => List.mem_map_of_mem hp) hi σ0 σ0 (fun _ _ => rfl) x
      have hold : exec A ac.main σ1 x = match lastGet ac.main x with | some e => A.eval σ1 e | none => σ1 x :=
        exec_parallel A ac.main N (fun p hp => List.mem_map_of_mem hp) hi σ1 σ1 (fun _ _ => rfl) x
      have hndm : (s.asm.map Prod.fst).Nodup := by rw [hinv.keys]; exact hnd
      have hNs : ∀ p ∈ s.asm, p.1 ∈ N := by
        intro p hp
        have : p.1 ∈ s.asm.map Prod.fst := List.mem_map_of_mem hp
        rw [hinv.keys] at this
        exact hkeys _ this
      have hrs : ∀ p ∈ s.asm, ∀ y ∈ A.vars p.2, y ∉ N := by
        intro p hp y hy hyN
        rcases hinv.asm_own p.1 p.2 (get_of_mem _ hndm p hp) y hy with ⟨q, hq, rfl⟩ | ⟨z, e0, hz, hy0⟩
        · obtain ⟨k, hk, hk'⟩ := hinv.lhs q hq
          obtain ⟨r, hr, hr'⟩ := List.mem_map.mp hyN
          exact hf.main_lhs k hk r hr (by rw [hr', hk'])
        · rw [toDict_get] at hz
          exact hi _ (lastGet_mem _ _ _ hz) y hy0 hyN
      have hnew : exec A s.asm σ1 x = match lastGet s.asm x with | some e => A.eval σ1 e | none => σ1 x :=
        exec_parallel A s.asm N hNs hrs σ1 σ1 (fun _ _ => rfl) x
      have hval := hinv.value σ1 hsat x
      rw [toDict_get, ← lastGet_eq_get _ hndm] at hval
      simp only [AC.run, hσ, ← hσ0]
      rw [hnew, hold, horig]
      cases hlg : lastGet ac.main x with
      | none =>
        rw [hlg, Option.map_none, Option.map_eq_none_iff] at hval
        rw [hval]
        exact ⟨hother x hx, hother x hx⟩
      | some e =>
        rw [hlg, Option.map_some, Option.map_eq_some_iff] at hval
        obtain ⟨e', he', hev⟩ := hval
        rw [he']
        simp only
        rw [hev]
        exact ⟨hmainval x e hlg, hmainval x e hlg⟩
  | some _, none, h => simp at h
  | none, _, h => simp at h

/-- symbols of two opposite directions have been rewritten to a sum and a difference -/
def IsPair (A : Alg E K) (asm : Asms E) (f fInv : ℕ) : Prop :=
  ∃ s a, get asm f = some (A.add (A.sym s) (A.sym a)) ∧ get asm fInv = some (A.sub (A.sym s) (A.sym a))

/-- progress of the loop -/
structure Prog (A : Alg E K) (S : Stencil D) (pdf : List ℕ) (d0 : Asms E) (i : ℕ) (s : St E) : Prop where
  keys : ∀ x, (get d0 x).isSome → (get s.asm x).isSome
  closed : ∀ (q q' : Fin S.Q), S.c q' = -S.c q → q.val ∈ s.done → q'.val ∈ s.done
  passed : ∀ q : Fin S.Q, q.val < i → S.c q ≠ 0 → q.val ∈ s.done
  pair : ∀ (q q' : Fin S.Q) (f f' : ℕ), q.val ∈ s.done → S.c q' = -S.c q → pdf[q.val]? = some f → pdf[q'.val]? = some f' →
    IsPair A s.asm f f' ∨ IsPair A s.asm f' f
  same : ∀ x, (∀ q ∈ s.done, pdf[q]? ≠ some x) → get s.asm x = get d0 x
  moving : ∀ (q : Fin S.Q), q.val ∈ s.done → S.c q ≠ 0

theorem symbolFor_asm (gen : ℕ → ℕ) (s : St E) (e : E) :
    (symbolFor gen s e).2.asm = s.asm ∧ (symbolFor gen s e).2.done = s.done := by
  unfold symbolFor
  cases s.subs.find? (fun p => p.1 == e) <;> simp

theorem splitPair_ok (A : Alg E K) (gen : ℕ → ℕ) (s : St E) (f fInv : ℕ) (hf : (get s.asm f).isSome)
    (hfi : (get s.asm fInv).isSome) : ∃ s' x y, splitPair A gen s f fInv = .ok s' ∧ s'.done = s.done ∧
      s'.asm = set (set s.asm f (A.add (A.sym x) (A.sym y))) fInv (A.sub (A.sym x) (A.sym y)) := by
  obtain ⟨a, ha⟩ := Option.isSome_iff_exists.mp hf
  obtain ⟨b, hb⟩ := Option.isSome_iff_exists.mp hfi
  refine ⟨_, (symbolFor gen s (A.half (A.add a b))).1,
    (symbolFor gen (symbolFor gen s (A.half (A.add a b))).2 (A.half (A.sub a b))).1, by unfold splitPair; rw [ha, hb], ?_, ?_⟩
  · simp only
    rw [(symbolFor_asm gen _ _).2, (symbolFor_asm gen _ _).2]
  · simp only
    rw [(symbolFor_asm gen _ _).1, (symbolFor_asm gen _ _).1]

theorem splitLoop_prog (A : Alg E K) (gen : ℕ → ℕ) (S : Stencil D) (hv : S.Valid) (hc : S.InvClosed) (pdf : List ℕ)
    (hlen : pdf.length = S.Q) (hnd : pdf.Nodup) (d0 : Asms E) (hk : ∀ f ∈ pdf, (get d0 f).isSome) :
    ∀ (fs : List ℕ) (i : ℕ) (s : St E), fs = pdf.drop i → Prog A S pdf d0 i s →
      ∃ s', splitLoop A gen S pdf s i fs = .ok s' ∧ Prog A S pdf d0 S.Q s' := by
  intro fs
  induction fs with
  | nil =>
    intro i s hfs hp
    have hi : S.Q ≤ i := by
      rw [← hlen]; exact List.drop_eq_nil_iff.mp hfs.symm
    exact ⟨s, rfl, ⟨hp.keys, hp.closed, fun q _ hq => hp.passed q (by omega) hq, hp.pair, hp.same, hp.moving⟩⟩
  | cons f fs ih =>
    intro i s hfs hp
    have hi : i < pdf.length := by
      by_contra h
      rw [List.drop_eq_nil_of_le (not_lt.mp h)] at hfs
      cases hfs
    have hiQ : i < S.Q := by omega
    have hfi : pdf[i]? = some f := by
      have := congrArg List.head? hfs
      rw [List.head?_drop] at this
      simpa using this.symm
    have hfs' : fs = pdf.drop (i + 1) := by
      have := congrArg List.tail hfs
      simpa [List.tail_drop] using this
    have hfm : f ∈ pdf := List.mem_of_getElem? hfi
    have inj : ∀ (j k x : ℕ), pdf[j]? = some x → pdf[k]? = some x → j = k := by
      intro j k x hj hk
      have hj' := (List.getElem?_eq_some_iff.mp hj).1
      exact (List.getElem?_inj hj' hnd).mp (by rw [hj, hk])
    suffices h : ∃ s1, splitStep A gen S pdf s i f = .ok s1 ∧ Prog A S pdf d0 (i + 1) s1 by
      obtain ⟨s1, h1, h2⟩ := h
      obtain ⟨s', h3, h4⟩ := ih (i + 1) s1 hfs' h2
      exact ⟨s', by simp only [splitLoop, h1]; exact h3, h4⟩
    have hstep : ∀ s1 : St E, Prog A S pdf d0 i s1 → (S.c ⟨i, hiQ⟩ ≠ 0 → i ∈ s1.done) → Prog A S pdf d0 (i + 1) s1 := by
      intro s1 h1 h2
      refine ⟨h1.keys, h1.closed, fun q hq hq0 => ?_, h1.pair, h1.same, h1.moving⟩
      rcases Nat.lt_succ_iff_lt_or_eq.mp hq with h | h
      · exact h1.passed q h hq0
      · obtain rfl : q = ⟨i, hiQ⟩ := Fin.ext h
        exact h2 hq0
    by_cases hd : i ∈ s.done
    · exact ⟨s, by simp [splitStep, hd], hstep s hp fun _ => hd⟩
    · by_cases h0 : S.c ⟨i, hiQ⟩ = 0
      · exact ⟨s, by simp [splitStep, hd, hiQ, h0], hstep s hp fun h => absurd h0 h⟩
      · obtain ⟨j, hj⟩ := hc ⟨i, hiQ⟩
        have hidx : S.index (-S.c ⟨i, hiQ⟩) = some j := by rw [← hj]; exact (Stencil.index_eq_some hv).mpr rfl
        have hjl : j.val < pdf.length := by rw [hlen]; exact j.isLt
        have hpj : pdf[j.val]? = some pdf[j.val] := List.getElem?_eq_getElem hjl
        have hji : j.val ≠ i := by
          intro e
          obtain rfl : j = ⟨i, hiQ⟩ := Fin.ext e
          apply h0
          funext k
          have := congrFun hj k
          simp only [Pi.neg_apply] at this
          simp only [Pi.zero_apply]
          omega
        have hinv : S.c ⟨i, hiQ⟩ = -S.c j := by rw [hj, neg_neg]
        have hjd : j.val ∉ s.done := fun h => hd (hp.closed j ⟨i, hiQ⟩ hinv h)
        have hne : f ≠ pdf[j.val] := fun e => hji (inj j.val i f (by rw [hpj, e]) hfi)
        obtain ⟨s1, x, y, h1, hdn, hasm⟩ := splitPair_ok A gen { s with done := i :: j.val :: s.done } f pdf[j.val]
          (hp.keys f (hk f hfm)) (hp.keys _ (hk _ (List.getElem_mem hjl)))
        refine ⟨s1, by simp only [splitStep, if_neg hd, dif_pos hiQ, if_neg h0, hidx, hpj]; exact h1, ?_⟩
        simp only at hdn hasm
        have hpair : IsPair A s1.asm f pdf[j.val] := by
          refine ⟨x, y, ?_, ?_⟩
          · rw [hasm, get_set, if_neg hne.symm, get_set, if_pos rfl]
          · rw [hasm, get_set, if_pos rfl]
        have huniq : ∀ q q' : Fin S.Q, S.c q' = -S.c q → ∀ q'', S.c q'' = -S.c q → q' = q'' := fun q q' h q'' h' =>
          hv (by rw [h, h'])
        refine ⟨?_, ?_, ?_, ?_, ?_, ?_⟩
        · intro z hz
          rw [hasm, get_set, get_set]
          split
          · simp
          · split
            · simp
            · exact hp.keys z hz
        · intro q q' hqq hq
          rw [hdn] at hq ⊢
          simp only [List.mem_cons] at hq ⊢
          rcases hq with hq | hq | hq
          · obtain rfl : q = ⟨i, hiQ⟩ := Fin.ext hq
            exact Or.inr (Or.inl (congrArg Fin.val (huniq _ q' hqq j hj)))
          · obtain rfl : q = j := Fin.ext hq
            exact Or.inl (congrArg Fin.val (huniq _ q' hqq ⟨i, hiQ⟩ hinv))
          · exact Or.inr (Or.inr (hp.closed q q' hqq hq))
        · intro q hq hq0
          rw [hdn]
          simp only [List.mem_cons]
          rcases Nat.lt_succ_iff_lt_or_eq.mp hq with h | h
          · exact Or.inr (Or.inr (hp.passed q h hq0))
          · exact Or.inl h
        · intro q q' g g' hq hqq hg hg'
          rw [hdn] at hq
          simp only [List.mem_cons] at hq
          rcases hq with hq | hq | hq
          · obtain rfl : q = ⟨i, hiQ⟩ := Fin.ext hq
            obtain rfl := huniq _ q' hqq j hj
            rw [hfi] at hg
            rw [hpj] at hg'
            injection hg with hg; injection hg' with hg'
            subst hg; subst hg'
            exact Or.inl hpair
          · obtain rfl : q = j := Fin.ext hq
            obtain rfl := huniq _ q' hqq ⟨i, hiQ⟩ hinv
            rw [hfi] at hg'
            rw [hpj] at hg
            injection hg with hg; injection hg' with hg'
            subst hg; subst hg'
            exact Or.inr hpair
          · have hq' := hp.closed q q' hqq hq
            have hkeep : ∀ (r : Fin S.Q) (g : ℕ), r.val ∈ s.done → pdf[r.val]? = some g → get s1.asm g = get s.asm g := by
              intro r g hr hg
              have h1 : ¬ pdf[j.val] = g := fun e => hjd (by rw [inj j.val r.val g (by rw [hpj, e]) hg]; exact hr)
              have h2 : ¬ f = g := fun e => hd (by rw [inj i r.val g (by rw [hfi, e]) hg]; exact hr)
              rw [hasm, get_set, if_neg h1, get_set, if_neg h2]
            have hk1 := hkeep q g hq hg
            have hk2 := hkeep q' g' hq' hg'
            have := hp.pair q q' g g' hq hqq hg hg'
            unfold IsPair at this ⊢
            rw [hk1, hk2]
            exact this
        · intro z hz
          rw [hdn] at hz
          have h1 : ¬ pdf[j.val] = z := fun e => hz j.val (by simp) (by rw [hpj, e])
          have h2 : ¬ f = z := fun e => hz i (by simp) (by rw [hfi, e])
          rw [hasm, get_set, if_neg h1, get_set, if_neg h2]
          exact hp.same z fun q hq => hz q (by simp [hq])
        · intro q hq
          rw [hdn] at hq
          simp only [List.mem_cons] at hq
          rcases hq with hq | hq | hq
          · obtain rfl : q = ⟨i, hiQ⟩ := Fin.ext hq
            exact h0
          · obtain rfl : q = j := Fin.ext hq
            rw [hj]; exact neg_ne_zero.mpr h0
          · exact hp.moving q hq

/-- C37. For an inverse-closed stencil with distinct symbols, each having a main assignment, the function returns; every
two opposite moving directions are then assigned sum and difference of the same two symbols, and all other main
assignments are unchanged. -/
theorem C37_form (A : Alg E K) (gen : ℕ → ℕ) (S : Stencil D) (hv : S.Valid) (hc : S.InvClosed) (pdf : List ℕ)
    (hlen : pdf.length = S.Q) (hnd : pdf.Nodup) (ac : AC E) (hk : ∀ f ∈ pdf, f ∈ ac.main.map Prod.fst) :
    ∃ new old, split A gen (some S) (some pdf) ac = .ok (new, old) ∧
      (∀ (q q' : Fin S.Q), S.c q ≠ 0 → S.c q' = -S.c q → ∃ f f', pdf[q.val]? = some f ∧ pdf[q'.val]? = some f' ∧
        (IsPair A new.main f f' ∨ IsPair A new.main f' f)) ∧
      (∀ x, (∀ q : Fin S.Q, S.c q ≠ 0 → pdf[q.val]? ≠ some x) → get new.main x = lastGet ac.main x) := by
  have hk' : ∀ f ∈ pdf, (get (toDict ac.main) f).isSome := by
    intro f hf
    rw [toDict_get, lastGet_isSome]
    exact hk f hf
  obtain ⟨s, hs, hp⟩ := splitLoop_prog A gen S hv hc pdf hlen hnd (toDict ac.main) hk' pdf 0
    { asm := toDict ac.main, done := [], subs := [], ctr := ac.ctr } rfl
    ⟨fun _ h => h, fun _ _ _ h => absurd h (by simp), fun q h => absurd h (by simp), fun q _ _ _ h => absurd h (by simp),
      fun _ _ => rfl, fun _ h => absurd h (by simp)⟩
  refine ⟨_, _, by simp only [split, hs]; rfl, ?_, ?_⟩
  · intro q q' hq hqq
    have h1 : q.val < pdf.length := by rw [hlen]; exact q.isLt
    have h2 : q'.val < pdf.length := by rw [hlen]; exact q'.isLt
    exact ⟨_, _, List.getElem?_eq_getElem h1, List.getElem?_eq_getElem h2,
      hp.pair q q' _ _ (hp.passed q q.isLt hq) hqq (List.getElem?_eq_getElem h1) (List.getElem?_eq_getElem h2)⟩
  · intro x hx
    rw [← toDict_get]
    refine hp.same x fun q hq hqx => ?_
    have hqQ : q < S.Q := by rw [← hlen]; exact (List.getElem?_eq_some_iff.mp hqx).1
    exact hx ⟨q, hqQ⟩ (hp.moving ⟨q, hqQ⟩ hq) hqx

/-- C37. Missing hints are reported. -/
theorem C37_hints (A : Alg E K) (gen : ℕ → ℕ) (S : Stencil D) (pdf : Option (List ℕ)) (ac : AC E) :
    split A gen (none : Option (Stencil D)) pdf ac = .error .valueError ∧
      split A gen (some S) none ac = .error .valueError := by
  constructor <;> rfl

/-! ### Expressions without simplification, examples -/

/-- expression trees -/
inductive Tree
  | sym (x : ℕ)
  | num (n : ℤ)
  | add (a b : Tree)
  | sub (a b : Tree)
  | half (a : Tree)
  deriving DecidableEq

/-- value -/
def Tree.eval (ρ : ℕ → ℚ) : Tree → ℚ
  | .sym x => ρ x
  | .num n => n
  | .add a b => a.eval ρ + b.eval ρ
  | .sub a b => a.eval ρ - b.eval ρ
  | .half a => a.eval ρ / 2

/-- free symbols -/
def Tree.vars : Tree → List ℕ
  | .sym x => [x]
  | .num _ => []
  | .add a b => a.vars ++ b.vars
  | .sub a b => a.vars ++ b.vars
  | .half a => a.vars

theorem Tree.eval_congr (ρ ρ' : ℕ → ℚ) (a : Tree) (h : ∀ x ∈ a.vars, ρ x = ρ' x) : a.eval ρ = a.eval ρ' := by
  induction a with
  | sym x => exact h x (by simp [Tree.vars])
  | num n => rfl
  | add a b iha ihb =>
    simp only [Tree.vars, List.mem_append] at h
    simp only [Tree.eval, iha fun x hx => h x (Or.inl hx), ihb fun x hx => h x (Or.inr hx)]
  | sub a b iha ihb =>
    simp only [Tree.vars, List.mem_append] at h
    simp only [Tree.eval, iha fun x hx => h x (Or.inl hx), ihb fun x hx => h x (Or.inr hx)]
  | half a iha =>
    simp only [Tree.vars] at h
    simp only [Tree.eval, iha h]

/-- trees as expressions -/
def treeAlg : Alg Tree ℚ where
  sym := .sym
  add := .add
  sub := .sub
  half := .half
  eval := Tree.eval
  vars := fun a => {x | x ∈ a.vars}
  eval_sym := fun _ _ => rfl
  eval_add := fun _ _ _ => rfl
  eval_sub := fun _ _ _ => rfl
  eval_half := fun _ _ => rfl
  eval_congr := Tree.eval_congr
  vars_sym := fun x y h => by simpa [Tree.vars] using h
  vars_add := fun a b x h => by simpa [Tree.vars] using h
  vars_sub := fun a b x h => by simpa [Tree.vars] using h
  vars_half := fun a x h => h

/-- one dimension: rest, left, right; symbols 0, 1, 2 assigned from 10, 11, 12 -/
def exStencil : Stencil 1 := ⟨3, ![![0], ![-1], ![1]]⟩

/-- example collection; the generator has produced nothing -/
def exAC : AC Tree where
  subexpressions := [(13, .add (.sym 10) (.sym 11))]
  main := [(0, .sym 13), (1, .add (.sym 13) (.sym 12)), (2, .sub (.sym 13) (.sym 12))]
  ctr := 0

/-- generator of the example -/
def exGen (k : ℕ) : ℕ := 100 + k

example : exStencil.Valid ∧ exStencil.InvClosed ∧ ([0, 1, 2] : List ℕ).Nodup ∧ [0, 1, 2].length = exStencil.Q ∧
    ∀ f ∈ [0, 1, 2], f ∈ exAC.main.map Prod.fst := by decide

example : Fresh treeAlg exGen exAC ∧ Independent treeAlg exAC.main := by
  constructor
  · refine ⟨fun a b h => by unfold exGen at h; omega, ?_, ?_, ?_, ?_⟩ <;>
    · intro k _ p hp
      simp only [exAC, List.mem_cons, List.not_mem_nil, or_false] at hp
      rcases hp with rfl | rfl | rfl <;> simp [exGen, treeAlg, Tree.vars] <;> omega
  · have : ∀ p ∈ exAC.main, ∀ x ∈ p.2.vars, x ∉ exAC.main.map Prod.fst := by decide
    exact this

/-- C37, on the conditions. When a main assignment reads the result of another one, the extracted subexpressions read it
too early: the value of symbol 1 changes from 5 to 0. -/
theorem C37_chained : let ac : AC Tree := ⟨[], [(0, .num 5), (1, .sym 0), (2, .sym 0)], 0⟩
    ∃ new old, split treeAlg exGen (some exStencil) (some [0, 1, 2]) ac = .ok (new, old) ∧
      ac.run treeAlg (fun _ => 0) 1 = 5 ∧ new.run treeAlg (fun _ => 0) 1 = 0 := by
  refine ⟨_, _, rfl, ?_, ?_⟩
  · decide +kernel
  · decide +kernel

/-- C37, beside the claim. The collection passed to the function is modified. -/
theorem C37_input_modified : ∃ new old, split treeAlg exGen (some exStencil) (some [0, 1, 2]) exAC = .ok (new, old) ∧
    exAC.subexpressions.length = 1 ∧ old.subexpressions.length = 3 := by
  refine ⟨_, _, rfl, by decide, by decide⟩

end SymSplit

end Lbm
