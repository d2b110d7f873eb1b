/-
Property theorems C07: boundary proxies.
-/
import Verif.Indexing
import Verif.Props.Streaming

set_option linter.unusedSectionVars false

namespace Lbm

variable {D : ℕ}

open Indexing

theorem lookup_of_mem {β : Type} {l : List (String × β)} {n : String} {v : β} (hm : (n, v) ∈ l)
    (hf : ∀ w, (n, w) ∈ l → w = v) : l.lookup n = some v := by
  induction l with
  | nil => cases hm
  | cons e l ih =>
    obtain ⟨m, w⟩ := e
    by_cases h : n = m
    · subst h
      simp [List.lookup, hf w (by simp)]
    · have h' : (n == m) = false := by simpa using h
      simp only [List.lookup, h']
      apply ih
      · simpa [h] using hm
      · intro w' hw'; exact hf w' (List.mem_cons_of_mem _ hw')

theorem indexName_inj : ∀ {k k' : FDir × Bool}, indexName k = indexName k' → k = k' := by
  rintro ⟨a, b⟩ ⟨a', b'⟩
  revert a b a' b'
  have : ∀ a ∈ [FDir.out, FDir.inn], ∀ b, ∀ a' ∈ [FDir.out, FDir.inn], ∀ b',
      indexName (a, b) = indexName (a', b') → (a, b) = (a', b') := by decide
  intro a b a' b'
  exact this a (by cases a <;> simp) b a' (by cases a' <;> simp) b'

theorem offsetName_inj : ∀ {k k' : FDir × Bool} {d d' : ℕ}, d < 3 → d' < 3 →
    offsetName k d = offsetName k' d' → k = k' ∧ d = d' := by
  rintro ⟨a, b⟩ ⟨a', b'⟩ d d' hd hd'
  have : ∀ a ∈ [FDir.out, FDir.inn], ∀ b, ∀ a' ∈ [FDir.out, FDir.inn], ∀ b', ∀ d < 3, ∀ d' < 3,
      offsetName (a, b) d = offsetName (a', b') d' → (a, b) = (a', b') ∧ d = d' := by decide +kernel
  exact this a (by cases a <;> simp) b a' (by cases a' <;> simp) b' d hd d' hd'

theorem indexName_ne_offsetName (k k' : FDir × Bool) (d : ℕ) (hd : d < 3) : indexName k ≠ offsetName k' d := by
  obtain ⟨a, b⟩ := k
  obtain ⟨a', b'⟩ := k'
  have : ∀ a ∈ [FDir.out, FDir.inn], ∀ b, ∀ a' ∈ [FDir.out, FDir.inn], ∀ b', ∀ d < 3,
      indexName (a, b) ≠ offsetName (a', b') d := by decide +kernel
  exact this a (by cases a <;> simp) b a' (by cases a' <;> simp) b' d hd

/-- The tables of a code node look up to what they should. -/
theorem codeNode_lookup {S : Stencil D} (hD : D ≤ 3) (ix : Indexing S) (T : FDir × Bool → Fin S.Q → Access D S.Q)
    (hT : ∀ k, ix.translated k = some (T k)) (rq : Req) :
    ∃ node, ix.codeNode rq = some node ∧
      (∀ k ∈ rq.idx, node.lookup (indexName k) = some (indexTable (T k))) ∧
      (∀ k ∈ rq.off, ∀ d : Fin D, node.lookup (offsetName k d) = some (offsetTable (T k) d)) := by
  have h1 : ∀ l : List (FDir × Bool), l.mapM (m := Option) (fun k => do
      return (indexName k, indexTable (← ix.translated k))) = some (l.map fun k => (indexName k, indexTable (T k))) := by
    intro l
    induction l with
    | nil => rfl
    | cons k l ih => rw [List.mapM_cons, ih]; simp [hT]
  have h2 : ∀ l : List (FDir × Bool), l.mapM (m := Option) (fun k => do
      let t ← ix.translated k
      return (List.finRange D).map fun d : Fin D => (offsetName k d.val, offsetTable t d))
      = some (l.map fun k => (List.finRange D).map fun d : Fin D => (offsetName k d.val, offsetTable (T k) d)) := by
    intro l
    induction l with
    | nil => rfl
    | cons k l ih => rw [List.mapM_cons, ih]; simp [hT]
  refine ⟨_, by simp only [codeNode, h1, h2]; rfl, ?_, ?_⟩
  · intro k hk
    apply lookup_of_mem
    · exact List.mem_append_left _ (List.mem_map.2 ⟨k, hk, rfl⟩)
    · intro w hw
      rcases List.mem_append.1 hw with h | h
      · obtain ⟨k', _, he⟩ := List.mem_map.1 h
        obtain rfl := indexName_inj (congrArg Prod.fst he)
        exact (congrArg Prod.snd he).symm
      · obtain ⟨l, hl, hm⟩ := List.mem_flatten.1 h
        obtain ⟨k', _, rfl⟩ := List.mem_map.1 hl
        obtain ⟨d, _, he⟩ := List.mem_map.1 hm
        exact absurd (congrArg Prod.fst he).symm (indexName_ne_offsetName _ _ _ (by omega))
  · intro k hk d
    apply lookup_of_mem
    · refine List.mem_append_right _ (List.mem_flatten.2 ⟨_, List.mem_map.2 ⟨k, hk, rfl⟩, ?_⟩)
      exact List.mem_map.2 ⟨d, List.mem_finRange d, rfl⟩
    · intro w hw
      rcases List.mem_append.1 hw with h | h
      · obtain ⟨k', _, he⟩ := List.mem_map.1 h
        exact absurd (congrArg Prod.fst he) (indexName_ne_offsetName _ _ _ (by omega))
      · obtain ⟨l, hl, hm⟩ := List.mem_flatten.1 h
        obtain ⟨k', _, rfl⟩ := List.mem_map.1 hl
        obtain ⟨d', _, he⟩ := List.mem_map.1 hm
        obtain ⟨rfl, h3⟩ := offsetName_inj (by omega) (by omega) (congrArg Prod.fst he)
        obtain rfl : d' = d := Fin.ext h3
        exact (congrArg Prod.snd he).symm

theorem make_spec {S : Stencil D} {p : String} (hs : Supported S p) (hc : S.InvClosed) {prev : Timestep}
    (ht : TsOk p prev) {a rd wr rd'} (F : StepFacts S p prev a rd wr rd') :
    Indexing.make S p prev = some ⟨wr, rd'⟩ := by
  obtain ⟨a', ha', hr'⟩ := F.next
  obtain ⟨inv, hidx, -⟩ := exists_inv hs.2.1 hc
  have hcol : collect (inverseDirIndex S) = some inv := collect_eq_some.2 fun i => hidx i
  have hb : ¬ (prev = .both ∧ a.isInplace = true) := by
    rintro ⟨rfl, h⟩
    have h1 := F.acc
    have h2 := F.flag
    rw [h] at h2
    simp [getAccessor, h2] at h1
  unfold Indexing.make
  rw [F.flag]
  simp only [Option.bind_eq_bind, Option.bind_some]
  rw [if_neg hb]
  simp [F.acc, F.write, ha', hr', hcol]

/-- The direction a proxy denotes once the run-time symbols have values: its index, reversed if `inv_dir` is used.
Stated through velocities: `j` is *the* direction whose velocity is the (reversed) velocity of the index. -/
def Denotes (S : Stencil D) (rt : ℕ → Fin S.Q) (p : Proxy D S.Q) (j : Fin S.Q) : Prop :=
  let i := p.idx.elim id rt
  S.c j = if p.inv then -S.c i else S.c i

/-- C07: let `wr` be the slots the kernel of the previous timestep writes to and `rd` the slots the kernel of the next
timestep reads from. For any list of proxy accesses, the substituted accesses evaluated with the generated tables are,
for all values of the run-time directions: `f_out` of direction `j` at the shifted cell is slot `wr j` of that cell,
`f_in` of direction `j` is slot `rd j` of that cell. -/
theorem C07_proxies_address_right_slots (hD : D ≤ 3) {S : Stencil D} {p : String} (hs : Supported S p)
    (hc : S.InvClosed) {prev : Timestep} (ht : TsOk p prev) (proxies : List (Proxy D S.Q)) :
    ∃ aPrev aNext wr rd ix rq subs node,
      getAccessor D p prev = some aPrev ∧ getAccessor D p prev.next = some aNext ∧
      aPrev.write S = some wr ∧ aNext.read S = some rd ∧
      Indexing.make S p prev = some ix ∧
      ix.substituteProxies proxies ⟨[], []⟩ = some (rq, subs) ∧ ix.codeNode rq = some node ∧
      List.Forall₂ (fun (q : Proxy D S.Q) s => ∀ rt j, Denotes S rt q j →
        s.eval node rt = some (match q.fdir with
          | .out => ((wr j).1 + q.shift, ((wr j).2.val : ℤ))
          | .inn => ((rd j).1 + q.shift, ((rd j).2.val : ℤ)))) proxies subs := by
  obtain ⟨a, rd, wr, rd', F⟩ := stepFacts hs ht
  obtain ⟨a', ha', hr'⟩ := F.next
  have hmk := make_spec hs hc ht F
  set ix : Indexing S := ⟨wr, rd'⟩ with hix
  obtain ⟨inv, hidx, hcinv, hinv2, -⟩ := exists_inv hs.2.1 hc
  have hv := hs.2.1
  have hcol : collect (inverseDirIndex S) = some inv := collect_eq_some.2 fun i => hidx i
  set T : FDir × Bool → Fin S.Q → Access D S.Q := fun k i => ix.acc k.1 (if k.2 then inv i else i) with hTdef
  have hT : ∀ k, ix.translated k = some (T k) := by
    rintro ⟨f, b⟩
    cases b <;> simp [translated, hcol, hTdef]
  -- the state only grows, and every substituted access is right in every node whose tables are right
  have key : ∀ (ps : List (Proxy D S.Q)) (rq : Req), ∃ rq' subs, ix.substituteProxies ps rq = some (rq', subs) ∧
      rq.idx ⊆ rq'.idx ∧ rq.off ⊆ rq'.off ∧
      ∀ node : List (String × List ℤ),
        (∀ k ∈ rq'.idx, node.lookup (indexName k) = some (indexTable (T k))) →
        (∀ k ∈ rq'.off, ∀ d : Fin D, node.lookup (offsetName k d) = some (offsetTable (T k) d)) →
        List.Forall₂ (fun (q : Proxy D S.Q) s => ∀ rt j, Denotes S rt q j →
          s.eval node rt = some ((ix.acc q.fdir j).1 + q.shift, ((ix.acc q.fdir j).2.val : ℤ))) ps subs := by
    intro ps
    induction ps with
    | nil => intro rq; exact ⟨rq, [], rfl, fun _ h => h, fun _ h => h, fun _ _ _ => .nil⟩
    | cons q ps ih =>
      intro rq
      obtain ⟨fd, b, idx, sh⟩ := q
      cases idx with
      | inl i =>
        obtain ⟨rq', subs, h1, h2, h3, h4⟩ := ih rq
        have hone : ix.substituteOne ⟨fd, b, .inl i, sh⟩ rq = some (rq,
            ⟨.lit (T (fd, b) i).2, fun d => .lit ((T (fd, b) i).1 d), sh⟩) := by
          cases b
          · simp [substituteOne, hTdef]
          · have : inverseDirIndex S i = some (inv i) := hidx i
            simp [substituteOne, hTdef, this]
        refine ⟨rq', ⟨.lit (T (fd, b) i).2, fun d => .lit ((T (fd, b) i).1 d), sh⟩ :: subs,
          by simp [substituteProxies, hone, h1], h2, h3, fun node hn1 hn2 => .cons ?_ (h4 node hn1 hn2)⟩
        intro rt j hj
        have hj' : j = if b then inv i else i := by
          apply hv
          simp only [Denotes, Sum.elim_inl, id] at hj
          rw [hj]; cases b <;> simp [hcinv]
        subst hj'
        have : collect (fun d => some ((T (fd, b) i).1 d)) = some (T (fd, b) i).1 := collect_eq_some.2 fun d => rfl
        simp only [Subst.eval, IdxE.eval, OffE.eval, this, Option.bind_eq_bind, Option.bind_some, pure]
        rfl
      | inr n =>
        have harr : ∃ rq1 ie oe, ix.arraySymbols (fd, b) n rq = some (rq1, ie, oe) ∧ rq.idx ⊆ rq1.idx ∧
            rq.off ⊆ rq1.off ∧
            ((trivialIndex (T (fd, b)) = true ∧ ie = IdxE.sym n) ∨
              ((fd, b) ∈ rq1.idx ∧ ie = IdxE.arr (indexName (fd, b)) n)) ∧
            ((trivialOffset (T (fd, b)) = true ∧ oe = fun _ => OffE.lit 0) ∨
              ((fd, b) ∈ rq1.off ∧ oe = fun d : Fin D => OffE.arr (offsetName (fd, b) d) n)) := by
          unfold arraySymbols
          rw [hT]
          by_cases c1 : trivialIndex (T (fd, b)) = true <;> by_cases c2 : trivialOffset (T (fd, b)) = true <;>
            simp [c1, c2]
        obtain ⟨rq1, ie, oe, e1, e2, e3, e4, e5⟩ := harr
        obtain ⟨rq', subs, h1, h2, h3, h4⟩ := ih rq1
        refine ⟨rq', ⟨ie, oe, sh⟩ :: subs, by simp [substituteProxies, substituteOne, e1, h1], fun _ h => h2 (e2 h),
          fun _ h => h3 (e3 h), fun node hn1 hn2 => .cons ?_ (h4 node hn1 hn2)⟩
        intro rt j hj
        have hj' : j = if b then inv (rt n) else rt n := by
          apply hv
          simp only [Denotes, Sum.elim_inr] at hj
          rw [hj]; cases b <;> simp [hcinv]
        have hTj : T (fd, b) (rt n) = ix.acc fd j := by rw [hj']
        have hi : ie.eval node rt = some ((ix.acc fd j).2.val : ℤ) := by
          rcases e4 with ⟨c1, rfl⟩ | ⟨c1, rfl⟩
          · have c1' : indexTable (T (fd, b)) = (List.range S.Q).map (fun n : ℕ => (n : ℤ)) := by
              simpa [trivialIndex] using c1
            have := congrArg (fun l => l[(rt n).val]?) c1'
            simp [indexTable, hTj] at this
            simp [IdxE.eval, this]
          · simp only [IdxE.eval, hn1 _ (h2 c1), Option.bind_eq_bind, Option.bind_some, indexTable]
            rw [List.getElem?_ofFn]
            simp [hTj]
        have ho : ∀ d, (oe d).eval node rt = some ((ix.acc fd j).1 d) := by
          intro d
          rcases e5 with ⟨c1, rfl⟩ | ⟨c1, rfl⟩
          · have c1' : offsetTable (T (fd, b)) d = List.replicate S.Q 0 := by
              have : ∀ d, offsetTable (T (fd, b)) d = List.replicate S.Q 0 := by simpa [trivialOffset] using c1
              exact this d
            have := congrArg (fun l => l[(rt n).val]?) c1'
            simp [offsetTable, hTj] at this
            simp [OffE.eval, this]
          · simp only [OffE.eval, hn2 _ (h3 c1), Option.bind_eq_bind, Option.bind_some, offsetTable]
            rw [List.getElem?_ofFn]
            simp [hTj]
        have : collect (fun d => (oe d).eval node rt) = some (ix.acc fd j).1 := collect_eq_some.2 ho
        simp only [Subst.eval, hi, this, Option.bind_eq_bind, Option.bind_some, pure]
        rfl
  obtain ⟨rq, subs, h1, -, -, h4⟩ := key proxies ⟨[], []⟩
  obtain ⟨node, hn, hn1, hn2⟩ := codeNode_lookup hD ix T hT rq
  refine ⟨a, a', wr, rd', ix, rq, subs, node, F.acc, ha', F.write, hr', hmk, h1, hn, ?_⟩
  refine (h4 node hn1 hn2).imp ?_
  intro q s hq rt j hj
  rw [hq rt j hj]
  obtain ⟨fd, b, idx, sh⟩ := q
  cases fd <;> rfl

/-- A no-slip rule `f_in(inv_dir[dir]) = f_out(dir)` next to a neighbour access with a constant direction. -/
example : ∃ proxies : List (Proxy 2 exStencil.Q), proxies.length = 3 ∧ TsOk "aa" .odd ∧ Supported exStencil "aa" ∧
    exStencil.InvClosed :=
  ⟨[⟨.inn, true, .inr 0, 0⟩, ⟨.out, false, .inr 0, 0⟩, ⟨.out, true, .inl ⟨3, by decide⟩, ![1, 0]⟩], rfl,
    ⟨_, rfl, by decide⟩, by decide +kernel, by decide +kernel⟩

/-- C07, timesteps that do not determine the slots are rejected: for an in-place pattern with `Timestep.BOTH` no
translation is produced. -/
theorem C07_inplace_both_rejected (S : Stencil D) (p : String) (h : isInplace p = some true) :
    Indexing.make S p .both = none := by
  simp [Indexing.make, h]

end Lbm
