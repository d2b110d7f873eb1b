/-
C34: the symbolic relaxation matrix stands for the given rates.
-/
import Verif.SymbolicRates
import Std.Data.String.ToNat
import Mathlib.Data.List.Nodup
import Mathlib.Data.List.Lookmap
import Mathlib.Data.Rat.Defs

namespace Lbm

theorem rrName_inj {m n : ℕ} : rrName m = rrName n ↔ m = n := by
  constructor
  · intro h
    have : m.repr.toList = n.repr.toList := by
      have := congrArg String.toList h
      simpa [rrName] using this
    exact Nat.repr_injective (String.toList_inj.1 this)
  · rintro rfl; rfl

namespace Spec

/-- value of a rate in an environment -/
def rateValue {E K : Type} (eval : E → (String → K) → K) (env : String → K) : Rate E → K
  | .sym s => env s
  | .expr e => eval e env

/-- no symbol used by the user is named like a generated one -/
def NoClash {E : Type} (syms : E → String → Prop) (rr : List (Rate E)) : Prop :=
  ∀ r ∈ rr, match r with
    | .sym s => ∀ n, s ≠ rrName n
    | .expr e => ∀ s n, syms e s → s ≠ rrName n

end Spec

variable {E K : Type} [DecidableEq E]

/-- what the loop knows about the dictionary -/
structure SubInv (sub : List (E × String)) : Prop where
  names : sub.map Prod.snd = (List.range sub.length).map rrName
  keys : (sub.map Prod.fst).Nodup

/-- relation between a rate and the symbol standing for it -/
def StandsFor (norm : E → E) (sub : List (E × String)) : Rate E → String → Prop
  | .sym s, t => t = s
  | .expr e, t => (norm e, t) ∈ sub

theorem assoc_lookup_mem {α β : Type} [DecidableEq α] {l : List (α × β)} {k : α} {v : β} (h : l.lookup k = some v) :
    (k, v) ∈ l := by
  induction l with
  | nil => simp at h
  | cons a l ih =>
    obtain ⟨x, y⟩ := a
    rw [List.lookup_cons] at h
    by_cases hx : k = x
    · subst hx; simp at h; simp [h]
    · rw [beq_false_of_ne hx] at h; exact List.mem_cons_of_mem _ (ih h)

theorem assoc_lookup_none {α β : Type} [DecidableEq α] {l : List (α × β)} {k : α} (h : l.lookup k = none) :
    k ∉ l.map Prod.fst := by
  induction l with
  | nil => simp
  | cons a l ih =>
    obtain ⟨x, y⟩ := a
    rw [List.lookup_cons] at h
    by_cases hx : k = x
    · subst hx; simp at h
    · rw [beq_false_of_ne hx] at h
      simp only [List.map_cons, List.mem_cons, not_or]
      exact ⟨hx, ih h⟩

theorem symLoop_spec (norm : E → E) (rr : List (Rate E)) : ∀ sub, SubInv sub →
    SubInv (symLoop norm rr sub).2 ∧ sub ⊆ (symLoop norm rr sub).2 ∧
    List.Forall₂ (StandsFor norm (symLoop norm rr sub).2) rr (symLoop norm rr sub).1 ∧
    ∀ a ∈ (symLoop norm rr sub).2, a ∈ sub ∨ ∃ e, Rate.expr e ∈ rr ∧ norm e = a.1 := by
  induction rr with
  | nil => intro sub h; exact ⟨h, fun _ h => h, .nil, fun a h => .inl h⟩
  | cons r rr ih =>
    intro sub h
    cases r with
    | sym s =>
      obtain ⟨h1, h2, h3, h4⟩ := ih sub h
      refine ⟨h1, h2, .cons rfl h3, fun a ha => ?_⟩
      rcases h4 a ha with h | ⟨e, he, hn⟩
      · exact .inl h
      · exact .inr ⟨e, List.mem_cons_of_mem _ he, hn⟩
    | expr e =>
      simp only [symLoop]
      cases hl : sub.lookup (norm e) with
      | some s =>
        obtain ⟨h1, h2, h3, h4⟩ := ih sub h
        refine ⟨h1, h2, .cons (h2 (assoc_lookup_mem hl)) h3, fun a ha => ?_⟩
        rcases h4 a ha with h | ⟨e, he, hn⟩
        · exact .inl h
        · exact .inr ⟨e, List.mem_cons_of_mem _ he, hn⟩
      | none =>
        have hk := assoc_lookup_none hl
        have hI : SubInv (sub ++ [(norm e, rrName sub.length)]) := by
          constructor
          · simp [h.names, List.range_succ]
          · rw [List.map_append, List.nodup_append]
            refine ⟨h.keys, by simp, ?_⟩
            intro a ha b hb
            simp only [List.map_cons, List.map_nil, List.mem_singleton] at hb
            subst hb
            exact fun hab => hk (hab ▸ ha)
        obtain ⟨h1, h2, h3, h4⟩ := ih _ hI
        refine ⟨h1, fun a ha => h2 (List.mem_append_left _ ha),
          .cons (h2 (List.mem_append_right _ (List.mem_singleton.2 rfl))) h3, fun a ha => ?_⟩
        rcases h4 a ha with h | ⟨e, he, hn⟩
        · rcases List.mem_append.1 h with h | h
          · exact .inl h
          · rw [List.mem_singleton] at h
            exact .inr ⟨e, List.mem_cons_self, by rw [h]⟩
        · exact .inr ⟨e, List.mem_cons_of_mem _ he, hn⟩

theorem SubInv.name_mem {sub : List (E × String)} (h : SubInv sub) {a : E × String} (ha : a ∈ sub) :
    ∃ n, a.2 = rrName n := by
  have : a.2 ∈ sub.map Prod.snd := List.mem_map_of_mem ha
  rw [h.names] at this
  obtain ⟨n, -, hn⟩ := List.mem_map.1 this
  exact ⟨n, hn.symm⟩

theorem SubInv.names_nodup {sub : List (E × String)} (h : SubInv sub) : (sub.map Prod.snd).Nodup := by
  rw [h.names]
  exact List.Nodup.map (fun _ _ hh => rrName_inj.1 hh) List.nodup_range

theorem exec_spec (eval : E → (String → K) → K) (syms : E → String → Prop)
    (hdep : ∀ e env env', (∀ s, syms e s → env s = env' s) → eval e env = eval e env')
    (sub : List (E × String)) : ∀ env : String → K, (sub.map Prod.snd).Nodup →
    (∀ a ∈ sub, ∀ b ∈ sub, ¬ syms a.1 b.2) →
    (∀ a ∈ sub, execAssignments eval sub env a.2 = eval a.1 env) ∧
    ∀ s, s ∉ sub.map Prod.snd → execAssignments eval sub env s = env s := by
  induction sub with
  | nil => intro env _ _; exact ⟨fun a h => absurd h (List.not_mem_nil), fun s _ => rfl⟩
  | cons a sub ih =>
    intro env hn hs
    rw [List.map_cons, List.nodup_cons] at hn
    obtain ⟨h1, h2⟩ := ih (Function.update env a.2 (eval a.1 env)) hn.2
      (fun a ha b hb => hs a (List.mem_cons_of_mem _ ha) b (List.mem_cons_of_mem _ hb))
    constructor
    · intro b hb
      rcases List.mem_cons.1 hb with rfl | hb
      · exact (h2 _ hn.1).trans (Function.update_self ..)
      · refine (h1 b hb).trans (hdep _ _ _ fun s hss => ?_)
        refine Function.update_of_ne ?_ ..
        rintro rfl
        exact hs b (List.mem_cons_of_mem _ hb) a List.mem_cons_self hss
    · intro s hs'
      simp only [List.map_cons, List.mem_cons, not_or] at hs'
      exact (h2 s hs'.2).trans (Function.update_of_ne hs'.1 ..)

theorem subInv_nil : SubInv ([] : List (E × String)) := ⟨rfl, List.nodup_nil⟩

/-- C34: after executing the recorded assignments every diagonal entry has the value of the given rate (times the
modifier, if there is one that uses no generated symbol), and every symbol of the user keeps its value. `syms e` are
the symbols of an expression; `norm` preserves the value. -/
theorem C34_values_preserved [Mul K] (norm : E → E) (eval : E → (String → K) → K) (syms : E → String → Prop)
    (hdep : ∀ e env env', (∀ s, syms e s → env s = env' s) → eval e env = eval e env')
    (hnorm : ∀ e env, eval (norm e) env = eval e env) (hnsym : ∀ e s, syms (norm e) s → syms e s)
    (rr : List (Rate E)) (hc : Spec.NoClash syms rr) (env : String → K) :
    diagonalValues norm eval rr none env = rr.map (Spec.rateValue eval env) ∧
    (∀ m : (String → K) → K,
      (∀ env env' : String → K, (∀ s, (∀ n, s ≠ rrName n) → env s = env' s) → m env = m env') →
      diagonalValues norm eval rr (some m) env = rr.map fun r => Spec.rateValue eval env r * m env) ∧
    ∀ s, (∀ n, s ≠ rrName n) → execAssignments eval (symbolicRates norm rr).2 env s = env s := by
  obtain ⟨hI, -, hF, hM⟩ := symLoop_spec norm rr [] subInv_nil
  have hex := exec_spec eval syms hdep _ env hI.names_nodup (by
    intro a ha b hb hs
    obtain ⟨n, hn⟩ := hI.name_mem hb
    rcases hM a ha with h | ⟨e, he, hne⟩
    · exact absurd h List.not_mem_nil
    · rw [← hne] at hs
      exact hc _ he b.2 n (hnsym e _ hs) hn)
  have huser : ∀ s, (∀ n, s ≠ rrName n) → execAssignments eval (symbolicRates norm rr).2 env s = env s := by
    intro s hs
    refine hex.2 s fun hmem => ?_
    rw [hI.names] at hmem
    obtain ⟨n, -, hn⟩ := List.mem_map.1 hmem
    exact hs n hn.symm
  have hval : List.Forall₂ (fun r s => execAssignments eval (symbolicRates norm rr).2 env s =
      Spec.rateValue eval env r) rr (symbolicRates norm rr).1 := by
    unfold symbolicRates at huser ⊢
    rw [List.forall₂_iff_get] at hF ⊢
    refine ⟨hF.1, fun i h1 h2 => ?_⟩
    have hf := hF.2 i h1 h2
    have hcl := hc (rr.get ⟨i, h1⟩) (List.get_mem _ _)
    generalize rr.get ⟨i, h1⟩ = r at hf hcl
    cases r with
    | sym s => simp only [StandsFor] at hf; rw [hf]; exact huser s hcl
    | expr e => exact (hex.1 _ hf).trans (hnorm e env)
  have hmap : ∀ (g : K → K), (symbolicRates norm rr).1.map
      (fun s => g (execAssignments eval (symbolicRates norm rr).2 env s)) =
      rr.map fun r => g (Spec.rateValue eval env r) := by
    intro g
    clear hF
    generalize (symbolicRates norm rr).1 = l at hval
    generalize execAssignments eval (symbolicRates norm rr).2 env = ev at hval
    clear hI hM hex huser hc
    induction hval with
    | nil => rfl
    | cons h _ ih => rw [List.map_cons, List.map_cons, h, ih]
  refine ⟨hmap id, fun m hm => ?_, huser⟩
  have e : m (execAssignments eval (symbolicRates norm rr).2 env) = m env := hm _ _ huser
  unfold diagonalValues
  simp only [e]
  exact hmap fun v => v * m env

/-- C34: equal values share one symbol, different ones get different symbols, symbols of the user stay. -/
theorem C34_sharing (norm : E → E) (rr : List (Rate E)) :
    (symbolicRates norm rr).1.length = rr.length ∧
    (∀ (i : ℕ) s, rr[i]? = some (Rate.sym s) → (symbolicRates norm rr).1[i]? = some s) ∧
    ∀ (i j : ℕ) e e', rr[i]? = some (Rate.expr e) → rr[j]? = some (Rate.expr e') →
      ((symbolicRates norm rr).1[i]? = (symbolicRates norm rr).1[j]? ↔ norm e = norm e') := by
  obtain ⟨hI, -, hF, -⟩ := symLoop_spec norm rr [] subInv_nil
  have hl : (symbolicRates norm rr).1.length = rr.length := hF.length_eq.symm
  rw [List.forall₂_iff_get] at hF
  have get : ∀ (i : ℕ) r, rr[i]? = some r → ∃ t, (symbolicRates norm rr).1[i]? = some t ∧
      StandsFor norm (symLoop norm rr []).2 r t := by
    intro i r h
    obtain ⟨hi, rfl⟩ := List.getElem?_eq_some_iff.1 h
    exact ⟨_, List.getElem?_eq_getElem (by rw [hl]; exact hi), hF.2 i hi (by rw [← hF.1]; exact hi)⟩
  refine ⟨hl, fun i s h => ?_, fun i j e e' h h' => ?_⟩
  · obtain ⟨t, ht, hs⟩ := get i _ h
    rw [ht]; exact congrArg some hs
  · obtain ⟨t, ht, hs⟩ := get i _ h
    obtain ⟨t', ht', hs'⟩ := get j _ h'
    rw [ht, ht', Option.some.injEq]
    simp only [StandsFor] at hs hs'
    constructor
    · rintro rfl
      have := List.inj_on_of_nodup_map hI.names_nodup hs hs' rfl
      exact congrArg Prod.fst this
    · intro hne
      have := List.inj_on_of_nodup_map hI.keys hs hs' hne
      exact congrArg Prod.snd this

theorem foldl_dict {V : Type} (l : List (String × V)) : ∀ d : List (String × V),
    (∀ e ∈ l.foldl (fun d e => (e.1, e.2) :: d.filter fun x => x.1 ≠ e.1) d, e ∈ l ∨ e ∈ d) ∧
    ∀ k, k ∈ l.map Prod.fst ∨ k ∈ d.map Prod.fst →
      k ∈ (l.foldl (fun d e => (e.1, e.2) :: d.filter fun x => x.1 ≠ e.1) d).map Prod.fst := by
  induction l with
  | nil => intro d; exact ⟨fun e h => .inr h, fun k h => by simpa using h⟩
  | cons a l ih =>
    intro d
    obtain ⟨h1, h2⟩ := ih ((a.1, a.2) :: d.filter fun x => x.1 ≠ a.1)
    refine ⟨fun e he => ?_, fun k hk => h2 k ?_⟩
    · rcases h1 e he with h | h
      · exact .inl (List.mem_cons_of_mem _ h)
      · rcases List.mem_cons.1 h with h | h
        · exact .inl (by rw [h]; exact List.mem_cons_self)
        · exact .inr (List.mem_filter.1 h).1
    · rcases hk with hk | hk
      · rcases List.mem_cons.1 hk with rfl | hk
        · exact .inr (by simp)
        · exact .inl hk
      · by_cases hka : k = a.1
        · exact .inr (by simp [hka])
        · obtain ⟨e, he, rfl⟩ := List.mem_map.1 hk
          exact .inr (List.mem_map_of_mem (List.mem_cons_of_mem _ (List.mem_filter.2 ⟨he, by simpa using hka⟩)))

/-- C34: substituting back with `subs_dict_relaxation_rate`: every symbol of the diagonal is in the dictionary, and
whatever rate it is mapped to agrees with the rate at every position using this symbol (up to `norm`). -/
theorem C34_substitute_back (norm : E → E) (syms : E → String → Prop) (rr : List (Rate E))
    (hc : Spec.NoClash syms rr) (i : ℕ) (t : String) (r : Rate E) (ht : (symbolicRates norm rr).1[i]? = some t)
    (hr : rr[i]? = some r) :
    (∃ r', (t, r') ∈ subsDict norm rr) ∧ ∀ r', (t, r') ∈ subsDict norm rr →
      (r' = r ∨ ∃ e e', r = Rate.expr e ∧ r' = Rate.expr e' ∧ norm e = norm e') := by
  obtain ⟨hl, hsym, hexp⟩ := C34_sharing norm rr
  obtain ⟨h1, h2⟩ := foldl_dict (List.zip (symbolicRates norm rr).1 rr) []
  constructor
  · have : t ∈ (subsDict norm rr).map Prod.fst := h2 t (.inl (by
      rw [List.map_fst_zip (by omega)]
      exact List.mem_of_getElem? ht))
    obtain ⟨⟨a, r'⟩, hm, rfl⟩ := List.mem_map.1 this
    exact ⟨r', hm⟩
  · intro r' hm
    rcases h1 _ hm with hz | hz
    · obtain ⟨j, hj⟩ := List.getElem?_of_mem hz
      rw [List.getElem?_zip_eq_some] at hj
      obtain ⟨hj1, hj2⟩ := hj
      dsimp only at hj1 hj2
      obtain ⟨hI, -, hF, -⟩ := symLoop_spec norm rr [] subInv_nil
      rw [List.forall₂_iff_get] at hF
      have gen : ∀ (k : ℕ) e, rr[k]? = some (Rate.expr e) → (symbolicRates norm rr).1[k]? = some t → ∃ n, t = rrName n := by
        intro k e he ht
        obtain ⟨hk, hk'⟩ := List.getElem?_eq_some_iff.1 he
        obtain ⟨hk2, hk2'⟩ := List.getElem?_eq_some_iff.1 ht
        have := hF.2 k hk hk2
        rw [List.get_eq_getElem, List.get_eq_getElem, hk'] at this
        obtain ⟨n, hn⟩ := hI.name_mem this
        exact ⟨n, by rw [← hk2']; exact hn⟩
      cases r with
      | sym s =>
        have e1 := hsym i s hr
        rw [ht] at e1
        cases r' with
        | sym s' =>
          have e2 := hsym j s' hj2
          rw [hj1] at e2
          left; congr 1; simp only [Option.some.injEq] at e1 e2; rw [← e1, ← e2]
        | expr e' =>
          obtain ⟨n, hn⟩ := gen j e' hj2 hj1
          exact absurd ((Option.some.inj e1).symm.trans hn) (hc _ (List.mem_of_getElem? hr) n)
      | expr e =>
        cases r' with
        | sym s' =>
          have e2 := hsym j s' hj2
          rw [hj1] at e2
          obtain ⟨n, hn⟩ := gen i e hr ht
          exact absurd ((Option.some.inj e2).symm.trans hn) (hc _ (List.mem_of_getElem? hj2) n)
        | expr e' =>
          right
          exact ⟨e, e', rfl, rfl, (hexp i j e e' hr hj2).1 (by rw [ht, hj1])⟩
    · exact absurd hz List.not_mem_nil

/-- C34 is false without the name condition: a rate symbol called `rr_0` next to a number is silently overwritten by
that number, whatever value the user gives it. -/
theorem C34_name_collision (env : String → ℚ) :
    diagonalValues id (fun (e : ℚ) _ => e) [.sym "rr_0", .expr (3/2)] none env = [3/2, 3/2] := by
  have h : symbolicRates id [.sym "rr_0", .expr ((3/2 : ℚ))] = (["rr_0", "rr_0"], [(3/2, "rr_0")]) := by
    decide +kernel
  unfold diagonalValues
  simp only [h, execAssignments]
  simp

/-- hypotheses met: two numbers, one repeated, and a user symbol -/
example : Spec.NoClash (fun (_ : ℚ) _ => False) [.sym "omega", .expr 0, .expr (3/2), .expr 0] := by
  intro r hr
  have key : ∀ n, "omega" ≠ rrName n := by
    intro n h
    have := congrArg (fun s : String => s.toList.head?) h
    simp [rrName] at this
  simp only [List.mem_cons, List.not_mem_nil, or_false] at hr
  rcases hr with rfl | rfl | rfl | rfl
  · exact key
  all_goals exact fun _ _ h => absurd h not_false

example : symbolicRates id [.sym "omega", .expr (0 : ℚ), .expr (3/2), .expr 0] =
    (["omega", "rr_0", "rr_1", "rr_0"], [(0, "rr_0"), (3/2, "rr_1")]) := by decide +kernel

end Lbm
