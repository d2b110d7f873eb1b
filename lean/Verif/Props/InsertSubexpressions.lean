/-
C131: inserting subexpressions.
-/
import Verif.InsertSubexpressions
import Mathlib.Algebra.BigOperators.Group.List.Basic
import Mathlib.Tactic.Ring

namespace Lbm
namespace InsertSub

/-- the value of an expression -/
def Expr.eval (v : ℕ → ℚ) : Expr → ℚ
  | .sym n => v n
  | .const q => q
  | .add a b => a.eval v + b.eval v
  | .mul a b => a.eval v * b.eval v
  | .pow a n => a.eval v ^ n

/-- the expression contains the symbol -/
def Expr.Uses (s : ℕ) : Expr → Prop
  | .sym n => n = s
  | .const _ => False
  | .add a b => a.Uses s ∨ b.Uses s
  | .mul a b => a.Uses s ∨ b.Uses s
  | .pow a _ => a.Uses s

/-- the assignments executed one after the other -/
def exec (v : ℕ → ℚ) (l : List Asg) : ℕ → ℚ := l.foldl (fun v a => Function.update v a.1 (a.2.eval v)) v

/-- what the collection computes: the values of its main assignments -/
def Collection.values (c : Collection) (v : ℕ → ℚ) : List (ℕ × ℚ) := c.main.map fun a => (a.1, a.2.eval (exec v c.subs))

/-- no symbol is assigned twice, and none is used before (or in) its assignment -/
def Ordered (l : List Asg) : Prop := (∀ a ∈ l, ¬ a.2.Uses a.1) ∧ l.Pairwise fun a b => b.1 ≠ a.1 ∧ ¬ a.2.Uses b.1

theorem eval_congr {v v' : ℕ → ℚ} {e : Expr} (h : ∀ s, e.Uses s → v s = v' s) : e.eval v = e.eval v' := by
  induction e with
  | sym n => exact h n rfl
  | const q => rfl
  | add a b iha ihb => simp only [Expr.eval, iha fun s hs => h s (.inl hs), ihb fun s hs => h s (.inr hs)]
  | mul a b iha ihb => simp only [Expr.eval, iha fun s hs => h s (.inl hs), ihb fun s hs => h s (.inr hs)]
  | pow a n ih => simp only [Expr.eval, ih fun s hs => h s hs]

theorem eval_update {v : ℕ → ℚ} {e : Expr} {s : ℕ} (h : ¬ e.Uses s) (q : ℚ) : e.eval (Function.update v s q) = e.eval v :=
  eval_congr fun t ht => Function.update_of_ne (fun hts : t = s => h (hts ▸ ht)) _ _

theorem eval_subst (v : ℕ → ℚ) (s : ℕ) (e g : Expr) : (g.subst s e).eval v = g.eval (Function.update v s (e.eval v)) := by
  induction g with
  | sym n =>
    by_cases h : n = s
    · subst h
      simp [Expr.subst, Expr.eval]
    · simp [Expr.subst, Expr.eval, h]
  | const q => rfl
  | add a b iha ihb => simp only [Expr.subst, Expr.eval, iha, ihb]
  | mul a b iha ihb => simp only [Expr.subst, Expr.eval, iha, ihb]
  | pow a n ih => simp only [Expr.subst, Expr.eval, ih]

theorem subst_eq {s : ℕ} {e g : Expr} (h : ¬ g.Uses s) : g.subst s e = g := by
  induction g with
  | sym n => exact if_neg h
  | const q => rfl
  | add a b iha ihb => simp only [Expr.subst, iha fun hs => h (.inl hs), ihb fun hs => h (.inr hs)]
  | mul a b iha ihb => simp only [Expr.subst, iha fun hs => h (.inl hs), ihb fun hs => h (.inr hs)]
  | pow a n ih => simp only [Expr.subst, ih h]

theorem uses_subst {s t : ℕ} {e g : Expr} (h : (g.subst s e).Uses t) : g.Uses t ∨ e.Uses t := by
  induction g with
  | sym n =>
    by_cases hn : n = s
    · rw [Expr.subst, if_pos hn] at h
      exact .inr h
    · rw [Expr.subst, if_neg hn] at h
      exact .inl h
  | const q => exact h.elim
  | add a b iha ihb =>
    rcases h with h | h
    · exact (iha h).imp_left .inl
    · exact (ihb h).imp_left .inr
  | mul a b iha ihb =>
    rcases h with h | h
    · exact (iha h).imp_left .inl
    · exact (ihb h).imp_left .inr
  | pow a n ih => exact ih h

theorem exec_subst (s : ℕ) (e : Expr) (l : List Asg) (hl : ∀ a ∈ l, a.1 ≠ s ∧ ¬ e.Uses a.1) (v : ℕ → ℚ) :
    exec (Function.update v s (e.eval v)) l = Function.update (exec v (substAll s e l)) s (e.eval (exec v (substAll s e l))) := by
  induction l generalizing v with
  | nil => rfl
  | cons a l ih =>
    obtain ⟨h1, h2⟩ := hl a (by simp)
    have := ih (fun b hb => hl b (by simp [hb])) (Function.update v a.1 ((a.2.subst s e).eval v))
    rw [eval_update h2, Function.update_comm h1, eval_subst] at this
    rw [show exec (Function.update v s (e.eval v)) (a :: l) =
      exec (Function.update (Function.update v s (e.eval v)) a.1 (a.2.eval (Function.update v s (e.eval v)))) l from rfl, this]
    rw [show exec v (substAll s e (a :: l)) = exec (Function.update v a.1 ((a.2.subst s e).eval v)) (substAll s e l) from rfl, eval_subst]

theorem exec_append (v : ℕ → ℚ) (l l' : List Asg) : exec v (l ++ l') = exec (exec v l) l' := List.foldl_append

theorem insert_one {done rest : List Asg} {a : Asg} (h : Ordered (done ++ a :: rest)) :
    substAll a.1 a.2 done = done ∧ Ordered (done ++ substAll a.1 a.2 rest) ∧
      ∀ (v : ℕ → ℚ) (g : Expr), (g.subst a.1 a.2).eval (exec v (done ++ substAll a.1 a.2 rest)) = g.eval (exec v (done ++ a :: rest)) := by
  obtain ⟨h1, h2⟩ := h
  rw [List.pairwise_append, List.pairwise_cons] at h2
  obtain ⟨hd, ⟨ha, hr⟩, hdr⟩ := h2
  refine ⟨?_, ⟨?_, ?_⟩, ?_⟩
  · have : ∀ b ∈ done, (b.1, b.2.subst a.1 a.2) = b := fun b hb =>
      Prod.ext rfl (subst_eq (hdr b hb a (by simp)).2)
    exact (List.map_congr_left this).trans (List.map_id' _)
  · intro b hb
    rcases List.mem_append.mp hb with hb | hb
    · exact h1 b (by simp [hb])
    · obtain ⟨c, hc, rfl⟩ := List.mem_map.mp hb
      intro hu
      rcases uses_subst hu with hu | hu
      · exact h1 c (by simp [hc]) hu
      · exact (ha c hc).2 hu
  · rw [List.pairwise_append]
    refine ⟨hd, ?_, ?_⟩
    · rw [substAll, List.pairwise_map]
      refine hr.imp_of_mem fun {b c} hb hc hbc => ⟨hbc.1, fun hu => ?_⟩
      rcases uses_subst hu with hu | hu
      · exact hbc.2 hu
      · exact (ha c hc).2 hu
    · intro b hb c hc
      obtain ⟨d, hd', rfl⟩ := List.mem_map.mp hc
      exact hdr b hb d (by simp [hd'])
  · intro v g
    rw [exec_append, exec_append, eval_subst]
    rw [show exec (exec v done) (a :: rest) = exec (Function.update (exec v done) a.1 (a.2.eval (exec v done))) rest from rfl,
      exec_subst a.1 a.2 rest (fun b hb => ha b hb)]

theorem loop_values (chosen : Asg → Bool) (skip : List ℕ) (fuel : ℕ) (done rest main : List Asg) (h : Ordered (done ++ rest)) (v : ℕ → ℚ) :
    (insertLoop chosen skip fuel done rest main).values v = Collection.values ⟨done ++ rest, main⟩ v ∧
      Ordered (insertLoop chosen skip fuel done rest main).subs := by
  induction fuel generalizing done rest main with
  | zero => exact ⟨rfl, h⟩
  | succ n ih =>
    cases rest with
    | nil => exact ⟨rfl, h⟩
    | cons a rest =>
      rw [insertLoop]
      split_ifs with hc
      · obtain ⟨h1, h2, h3⟩ := insert_one h
        rw [h1]
        obtain ⟨h4, h5⟩ := ih done (substAll a.1 a.2 rest) (substAll a.1 a.2 main) h2
        refine ⟨h4.trans ?_, h5⟩
        simp only [Collection.values, substAll, List.map_map]
        exact List.map_congr_left fun b _ => Prod.ext rfl (h3 v b.2)
      · have he : done ++ a :: rest = done ++ [a] ++ rest := by simp
        rw [he] at h ⊢
        exact ih (done ++ [a]) rest main h

/-- C131. Inserting subexpressions never changes what a collection computes, whichever are chosen or skipped; the order stays valid. -/
theorem C131_values (c : Collection) (h : Ordered c.subs) (chosen : Asg → Bool) (skip : List ℕ) (v : ℕ → ℚ) :
    (insertSubexpressions c chosen skip).values v = c.values v ∧ Ordered (insertSubexpressions c chosen skip).subs :=
  loop_values chosen skip _ [] c.subs c.main h v

theorem loop_none (chosen : Asg → Bool) (skip : List ℕ) (fuel : ℕ) (done rest main : List Asg) (h : Ordered (done ++ rest))
    (hf : rest.length ≤ fuel) (hd : ∀ a ∈ done, a.1 ∈ skip ∨ chosen a = false) :
    ∀ a ∈ (insertLoop chosen skip fuel done rest main).subs, a.1 ∈ skip ∨ chosen a = false := by
  induction fuel generalizing done rest main with
  | zero =>
    obtain rfl : rest = [] := List.length_eq_zero_iff.mp (Nat.le_zero.mp hf)
    simpa [insertLoop] using hd
  | succ n ih =>
    cases rest with
    | nil => simpa [insertLoop] using hd
    | cons a rest =>
      rw [insertLoop]
      split_ifs with hc
      · obtain ⟨h1, h2, _⟩ := insert_one h
        rw [h1]
        exact ih done _ _ h2 (by simpa [substAll] using hf) hd
      · refine ih (done ++ [a]) rest main (by simpa using h) (by simpa using hf) ?_
        intro b hb
        rcases List.mem_append.mp hb with hb | hb
        · exact hd b hb
        · rw [List.mem_singleton.mp hb]
          by_contra hcon
          push Not at hcon
          exact hc (by simp [hcon.1, hcon.2])

/-- C131. Afterwards no subexpression is left that would be chosen, except for the skipped ones; also those are gone that became eligible only by
the insertion of others. -/
theorem C131_none_left (c : Collection) (h : Ordered c.subs) (chosen : Asg → Bool) (skip : List ℕ) :
    ∀ a ∈ (insertSubexpressions c chosen skip).subs, a.1 ∈ skip ∨ chosen a = false :=
  loop_none chosen skip _ [] c.subs c.main h le_rfl (by simp)

theorem constant_eval {e : Expr} (h : e.isConstant = true) (v v' : ℕ → ℚ) : e.eval v = e.eval v' := by
  refine eval_congr fun s hs => ?_
  exfalso
  induction e with
  | sym n => cases h
  | const q => exact hs
  | add a b iha ihb =>
    rw [Expr.isConstant, Bool.and_eq_true] at h
    exact hs.elim (iha h.1) (ihb h.2)
  | mul a b iha ihb =>
    rw [Expr.isConstant, Bool.and_eq_true] at h
    exact hs.elim (iha h.1) (ihb h.2)
  | pow a n ih => exact ih h hs

theorem factors_prod (v : ℕ → ℚ) (e : Expr) : (e.factors.map (Expr.eval v)).prod = e.eval v := by
  induction e with
  | mul a b iha ihb => simp only [Expr.factors, List.map_append, List.prod_append, iha, ihb, Expr.eval]
  | _ => simp [Expr.factors]

/-- a number times some of the symbols -/
def IsProduct (symbols : List ℕ) (e : Expr) : Prop :=
  ∃ (q : ℚ) (l : List ℕ), (∀ n ∈ l, n ∈ symbols) ∧ ∀ v, e.eval v = q * (l.map v).prod

/-- C131. What `insert_pure_products` chooses is a number times a product of the given symbols. -/
theorem C131_pure (symbols : List ℕ) (a : Asg) (h : pureProduct symbols a = true) : IsProduct symbols a.2 := by
  obtain ⟨s, e⟩ := a
  unfold pureProduct at h
  cases e with
  | sym n => exact ⟨1, [n], by simpa using h, fun v => by simp [Expr.eval]⟩
  | const q => cases h
  | add x y => cases h
  | pow x n => cases h
  | mul x y =>
    dsimp only at h
    rw [List.all_eq_true] at h
    have key : ∀ l : List Expr, (∀ f ∈ l, f.isConstant = true ∨ ∃ n ∈ symbols, f = .sym n) →
        ∃ (q : ℚ) (m : List ℕ), (∀ n ∈ m, n ∈ symbols) ∧ ∀ v, (l.map (Expr.eval v)).prod = q * (m.map v).prod := by
      intro l hl
      induction l with
      | nil => exact ⟨1, [], by simp, by simp⟩
      | cons f l ih =>
        obtain ⟨q, m, h1, h2⟩ := ih fun g hg => hl g (by simp [hg])
        rcases hl f (by simp) with hf | ⟨n, hn, rfl⟩
        · refine ⟨f.eval (fun _ => 0) * q, m, h1, fun v => ?_⟩
          rw [List.map_cons, List.prod_cons, h2, constant_eval hf v fun _ => 0]
          ring
        · refine ⟨q, n :: m, by simpa [hn] using h1, fun v => ?_⟩
          rw [List.map_cons, List.prod_cons, h2, List.map_cons, List.prod_cons, Expr.eval]
          ring
    obtain ⟨q, m, h1, h2⟩ := key (Expr.mul x y).factors fun f hf => by
      have := h f hf
      rw [Bool.or_eq_true] at this
      refine this.imp_right fun hs => ?_
      cases f with
      | sym n => exact ⟨n, by simpa using hs, rfl⟩
      | _ => cases hs
    exact ⟨q, m, h1, fun v => by rw [← h2, factors_prod]⟩

/-- C131. The square of a symbol is such a product as well, but is never inserted. -/
theorem C131_square (symbols : List ℕ) (s n : ℕ) (hn : n ∈ symbols) :
    IsProduct symbols (.pow (.sym n) 2) ∧ pureProduct symbols (s, .pow (.sym n) 2) = false :=
  ⟨⟨1, [n, n], by simpa using hn, fun v => by simp [Expr.eval, pow_two]⟩, rfl⟩

/-- C131. The three simplifications keep the values. -/
theorem C131_simplifications (c : Collection) (h : Ordered c.subs) (v : ℕ → ℚ) (skip u : List ℕ) (rho m000 : ℕ) (force : Option (List ℕ)) :
    (insertPureProducts c u skip).values v = c.values v ∧ (insertConservedProducts c rho m000 u skip).values v = c.values v ∧
      (insertHalfForce c force skip).values v = c.values v := by
  refine ⟨(C131_values c h _ _ v).1, (C131_values c h _ _ v).1, ?_⟩
  cases force with
  | none => rfl
  | some f => exact (C131_values c h _ _ v).1

/-- C131. No force model: nothing happens. Else no half of a force is left. -/
theorem C131_half_force (c : Collection) (h : Ordered c.subs) (skip f : List ℕ) :
    insertHalfForce c none skip = c ∧ ∀ a ∈ (insertHalfForce c (some f) skip).subs, ∀ n ∈ f,
      a.2 = .mul (.const (1 / 2)) (.sym n) ∨ a.2 = .mul (.const (-1 / 2)) (.sym n) → a.1 ∈ skip := by
  refine ⟨rfl, fun a ha n hn he => ?_⟩
  rcases C131_none_left c h _ skip a ha with h1 | h1
  · exact h1
  · exfalso
    rw [List.any_eq_false] at h1
    refine h1 n hn ?_
    rcases he with he | he <;> simp [he]

/-- a collection: symbols 0 and 1 are density and velocity; 10 = 0·1, 11 = 10·1, 12 = 11 + 2, main 20 = 11·12 -/
def sample : Collection := ⟨[(10, .mul (.sym 0) (.sym 1)), (11, .mul (.sym 10) (.sym 1)), (12, .add (.sym 11) (.sym 2))],
  [(20, .mul (.sym 11) (.sym 12))]⟩

/-- C131. `insert_conserved_quantity_products` ignores the argument `skip`: it inserts a subexpression that was to be kept. -/
theorem C131_skip_ignored : 10 ∉ (insertConservedProducts sample 0 5 [1] [10]).subs.map (·.1) ∧
    10 ∈ (insertPureProducts sample [0, 5, 1] [10]).subs.map (·.1) := by
  decide +kernel

/-- Concrete case: both products are inserted, the second only becomes a pure product by the first; the sum stays. -/
example : Ordered sample.subs ∧ (insertPureProducts sample [0, 1]).subs.map (·.1) = [12] ∧
    sample.values (fun n => n + 2) = [(20, 18 * 22)] ∧ (insertPureProducts sample [0, 1]).values (fun n => n + 2) = [(20, 18 * 22)] := by
  refine ⟨⟨?_, ?_⟩, by decide +kernel, by decide +kernel, by decide +kernel⟩
  · simp [sample, Expr.Uses]
  · simp [sample, Expr.Uses]

end InsertSub
end Lbm
