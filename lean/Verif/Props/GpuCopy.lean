/-
Property theorems C98: the copy kernels on GPUs do what the copies of slices do.
-/
import Verif.GpuCopy
import Verif.Props.Communication
import Mathlib.Data.Fintype.Pi
import Mathlib.Data.Int.Interval

namespace Lbm
namespace GpuCopy

variable {D : ℕ} {V : Type}

/-! ### one kernel, any interleaving -/

/-- a kernel that reads none of the cells it writes: after a part of the events, the cells stored so far have received the original
contents of their sources, and the registers loaded so far hold these contents -/
theorem launch_prefix {Q : ℕ} {L : Fin D → ℤ} {k : Kernel D Q}
    (hdis : ∀ x : Vec D, (∀ a, Iterates (L a) (k.slice a) (x a)) → ¬ ∀ a, Iterates (L a) (k.slice a) ((x + k.offset) a))
    (f : Vec D × Fin Q → V) (regs : Vec D → V) (l : List (Event D))
    (hsound : ∀ x, Event.store x ∈ l → ∀ a, Iterates (L a) (k.slice a) (x a))
    (hord : ∀ l₁ x l₂, l = l₁ ++ Event.store x :: l₂ → Event.load x ∈ l₁) :
    (∀ x, Event.store x ∈ l → (launch k l f regs).1 (x, k.idx) = f (x + k.offset, k.idx)) ∧
    (∀ s : Vec D × Fin Q, ¬ (s.2 = k.idx ∧ Event.store s.1 ∈ l) → (launch k l f regs).1 s = f s) ∧
    (∀ x, Event.load x ∈ l → (∀ a, Iterates (L a) (k.slice a) (x a)) → (launch k l f regs).2 x = f (x + k.offset, k.idx)) := by
  induction l using List.reverseRecOn with
  | nil => exact ⟨by simp, fun _ _ => rfl, by simp⟩
  | append_singleton l e ih =>
    obtain ⟨h1, h2, h3⟩ := ih (fun x hx => hsound x (List.mem_append_left _ hx)) (fun l₁ x l₂ h => hord l₁ x (l₂ ++ [e]) (by simp [h]))
    have hl : launch k (l ++ [e]) f regs = step k (launch k l f regs) e := by simp [launch]
    rw [hl]
    cases e with
    | load x =>
      refine ⟨fun y hy => ?_, fun s hs => ?_, fun y hy hi => ?_⟩
      · have hy' : Event.store y ∈ l := by simpa using hy
        exact h1 y hy'
      · exact h2 s (by simpa using hs)
      · simp only [step]
        by_cases hyx : y = x
        · subst hyx
          rw [if_pos rfl]
          refine h2 _ fun h => ?_
          exact hdis y hi fun a => hsound _ (List.mem_append_left _ h.2) a
        · rw [if_neg hyx]
          have hy' : Event.load y ∈ l := by
            rcases List.mem_append.1 hy with h | h
            · exact h
            · simp only [List.mem_singleton, Event.load.injEq] at h
              exact absurd h hyx
          exact h3 y hy' hi
    | store x =>
      have hx := hsound x (by simp)
      have hload : Event.load x ∈ l := hord l x [] rfl
      refine ⟨fun y hy => ?_, fun s hs => ?_, fun y hy hi => ?_⟩
      · simp only [step]
        by_cases hyx : y = x
        · subst hyx
          rw [if_pos rfl]
          exact h3 y hload hx
        · rw [if_neg (by simpa using hyx)]
          have hy' : Event.store y ∈ l := by
            rcases List.mem_append.1 hy with h | h
            · exact h
            · simp only [List.mem_singleton, Event.store.injEq] at h
              exact absurd h hyx
          exact h1 y hy'
      · simp only [step]
        rw [if_neg, h2 s]
        · rintro ⟨e1, e2⟩
          exact hs ⟨e1, List.mem_append_left _ e2⟩
        · rintro rfl
          exact hs ⟨rfl, by simp⟩
      · exact h3 y (by simpa using hy) hi

/-- a slice whose cells are inside of the array is not clamped -/
theorem mem_iff_of_bounds {L : ℤ} {s : Sl} {z : ℤ} (h : ∀ y, Iterates L s y → 0 ≤ y ∧ y < L) : s.Mem L z ↔ Iterates L s z := by
  rcases s with i | ⟨a, _ | b⟩
  · rfl
  · simp only [Iterates, normalize, Option.getD_some, Sl.Mem, Sl.clamp] at h ⊢
    generalize Sl.resolve L a = A at h ⊢
    by_cases hAB : A < L
    · have h1 := h A ⟨le_refl _, hAB⟩
      omega
    · omega
  · simp only [Iterates, normalize, Option.getD_some, Sl.Mem, Sl.clamp] at h ⊢
    generalize Sl.resolve L a = A at h ⊢
    generalize Sl.resolve L b = B at h ⊢
    by_cases hAB : A < B
    · have h1 := h A ⟨le_refl _, hAB⟩
      have h2 := h (B - 1) ⟨by omega, by omega⟩
      omega
    · omega

/-- a slice that is empty for the kernel is empty -/
theorem nonempty_of_mem {L : ℤ} {s : Sl} {z : ℤ} (h : s.Mem L z) : ∃ y, Iterates L s y := by
  rcases s with i | ⟨a, _ | b⟩
  · exact ⟨z, h⟩
  · simp only [Iterates, normalize, Option.getD_some, Sl.Mem, Sl.clamp] at h ⊢
    exact ⟨Sl.resolve L a, le_refl _, by omega⟩
  · simp only [Iterates, normalize, Option.getD_some, Sl.Mem, Sl.clamp] at h ⊢
    exact ⟨Sl.resolve L a, le_refl _, by omega⟩

/-- first cell of a slice with a cell inside of the array -/
theorem base_eq {L : ℤ} {s : Sl} (h : ∀ y, Iterates L s y → 0 ≤ y ∧ y < L) {z : ℤ} (hz : Iterates L s z) :
    s.base L = start (normalize L s) := by
  cases s with
  | int i => rfl
  | range a b =>
    simp only [Iterates, normalize, Option.getD_some] at h hz
    simp only [Sl.base, Sl.clamp, normalize, start]
    have h1 := h _ ⟨le_refl _, lt_of_le_of_lt hz.1 hz.2⟩
    omega

/-- in every component the bounds of the array, as soon as there is a cell in all components -/
theorem component_bounds {Q : ℕ} {L : Fin D → ℤ} {k : Kernel D Q} (hb : InBounds L k) {x : Vec D}
    (hx : ∀ a, Iterates (L a) (k.slice a) (x a)) (a : Fin D) (y : ℤ) (hy : Iterates (L a) (k.slice a) y) : 0 ≤ y ∧ y < L a := by
  have h := (hb (Function.update x a y) (fun b => by
    by_cases hba : b = a
    · subst hba; rwa [Function.update_self]
    · rw [Function.update_of_ne hba]; exact hx b) a).1
  rwa [Function.update_self] at h

/-- C98: a kernel of two slices in bounds of the array that have no cell in common has the effect of the copy of the slice, for
every interleaving of its threads and whatever the registers contained. -/
theorem C98_kernel {Q : ℕ} {L : Fin D → ℤ} {op : CopyOp D Q} {k : Kernel D Q} (hk : kernel L op = .ok k) (hb : InBounds L k)
    (hdis : ∀ x : Vec D, (∀ a, Iterates (L a) (op.dst a) (x a)) → ¬ ∀ a, Iterates (L a) (op.dst a) (x a + k.offset a))
    {f f' : Vec D × Fin Q → V} (hf : op.exec L f = some f') {events : List (Event D)} (hs : Schedule L k events) (regs : Vec D → V) :
    (launch k events f regs).1 = f' := by
  unfold kernel at hk
  simp only at hk
  split_ifs at hk with hlen
  cases hk
  unfold CopyOp.exec at hf
  split_ifs at hf with hcompat
  cases hf
  obtain ⟨h1, h2, -⟩ := launch_prefix hdis f regs events hs.sound hs.ordered
  -- the cells in the slice of the destination
  have hmem : ∀ x : Vec D, (∀ a, (op.dst a).Mem (L a) (x a)) ↔ ∀ a, Iterates (L a) (op.dst a) (x a) := by
    intro x
    constructor
    · intro h a
      choose y hy using fun a => nonempty_of_mem (h a)
      exact (mem_iff_of_bounds fun z hz => component_bounds hb hy a z hz).1 (h a)
    · intro h a
      exact (mem_iff_of_bounds fun z hz => component_bounds hb h a z hz).2 (h a)
  funext s
  obtain ⟨x, j⟩ := s
  by_cases hx : j = op.idx ∧ ∀ a, (op.dst a).Mem (L a) (x a)
  · rw [if_pos hx]
    obtain ⟨rfl, hx⟩ := hx
    have hi := (hmem x).1 hx
    rw [h1 x (hs.complete x hi)]
    congr 2
    funext a
    have e1 : (op.dst a).base (L a) = start (normalize (L a) (op.dst a)) :=
      base_eq (fun z hz => component_bounds hb hi a z hz) (hi a)
    have e2 : (op.src a).base (L a) = start (normalize (L a) (op.src a)) := by
      have hc := hcompat a
      have hl := hlen a
      have hb' := fun z hz => (hb (Function.update x a z) (fun b => by
        by_cases hba : b = a
        · subst hba; rw [Function.update_self]; exact hz
        · rw [Function.update_of_ne hba]; exact hi b) a).2
      have hia := hi a
      simp only [Function.update_self] at hb'
      rcases hsrc : op.src a with i | ⟨p, q⟩
      · rfl
      · rcases hdst : op.dst a with i' | ⟨p', q'⟩
        · rw [hsrc, hdst] at hc; exact hc.elim
        · rw [hdst] at hb' hia
          rw [hsrc] at hb'
          simp only [Iterates, normalize, Option.getD_some, start] at hb' hia
          have h0 := hb' _ ⟨le_refl _, lt_of_le_of_lt hia.1 hia.2⟩
          simp only [Sl.base, Sl.clamp, normalize, start]
          omega
    simp only [Pi.add_apply]
    rw [e1, e2]
    omega
  · rw [if_neg hx]
    refine h2 (x, j) fun h => hx ⟨h.1, (hmem x).2 (hs.sound x h.2)⟩

/-! ### the kernels of the periodicity handling -/

/-- the slices of the periodicity handling, one component: sizes agree, and the cells of the kernel and its offset in closed form -/
theorem component_sem {N : ℕ} (hN : 1 ≤ N) {p : String} {o c C : ℤ} (hb : o = 0 ∨ o = c) (hp : p = "pull" → o = 0)
    (hC : C = -1 ∨ C = 0 ∨ C = 1) (hi : if C = 0 then c = -1 ∨ c = 0 ∨ c = 1 else c = C) {s : Sl}
    (hs : (do
      let s := Sl.fixLengthOne (← Sl.beforeGhostLayer 1 C)
      if p ≠ "pull" then do
        let s ← s.trim (c - C)
        some (s.shift o)
      else some s) = some s) :
    let L : ℤ := N + 2 * (1 : ℕ)
    let d := s.shift (neighbourTransform 1 C)
    start (normalize L s) - start (normalize L d) = N * C ∧ stop L (normalize L s) - stop L (normalize L d) = N * C ∧
      ∀ z, Iterates L d z → (0 ≤ z ∧ z < L) ∧ (0 ≤ z + N * C ∧ z + N * C < L) ∧
        (C = 1 → z - o = 0) ∧ (C = -1 → z - o = N + 1) := by
  intro L d
  have hL : L = N + 2 := by simp [L]
  clear_value L
  subst hL
  rcases hC with rfl | rfl | rfl <;> by_cases hpp : p = "pull" <;>
    simp [Sl.beforeGhostLayer, Sl.fixLengthOne, hpp, Sl.trim] at hs hi
  all_goals first | (specialize hp hpp; subst hp) | rcases hb with rfl | rfl
  all_goals try subst hi
  all_goals try rcases hi with rfl | rfl | rfl
  all_goals try simp at hs
  all_goals
    subst hs
    simp only [d, Sl.shift, neighbourTransform, normalize, start, stop, Iterates, Sl.resolve, Option.map, Option.getD_some]
    refine ⟨?_, ?_, fun z hz => ?_⟩
    · split_ifs <;> omega
    · split_ifs <;> omega
    · split_ifs at hz <;> omega

/-- the slices of a pair are accepted by the kernel, all accesses are in bounds, and no cell is both read and written -/
theorem pair_sem {N : Fin D → ℕ} (hN : ∀ k, 1 ≤ N k) {S : Stencil D} {p : String} {wr : Fin S.Q → Access D S.Q}
    (hbox : ∀ i k, (wr i).1 k = 0 ∨ (wr i).1 k = S.c i k) (hpull : p = "pull" → ∀ i k, (wr i).1 k = 0)
    {C : Vec D} {i : Fin S.Q} (hC : ∀ k, C k = -1 ∨ C k = 0 ∨ C k = 1) (hne : ∃ k, C k ≠ 0)
    (hi : ∀ k, if C k = 0 then S.c i k = -1 ∨ S.c i k = 0 ∨ S.c i k = 1 else S.c i k = C k) {op : CopyOp D S.Q}
    (hop : commSlices S p 1 wr C i = some op) :
    ∃ k, kernel (fun a => N a + 2 * (1 : ℕ)) op = .ok k ∧ InBounds (fun a => N a + 2 * (1 : ℕ)) k ∧ k.slice = op.dst ∧
      ∀ x : Vec D, (∀ a, Iterates (N a + 2 * (1 : ℕ)) (op.dst a) (x a)) →
        ¬ ∀ a, Iterates (N a + 2 * (1 : ℕ)) (op.dst a) (x a + k.offset a) := by
  unfold commSlices at hop
  rw [Option.bind_eq_bind, Option.bind_eq_some_iff] at hop
  obtain ⟨src, hsrc, hop⟩ := hop
  cases hop
  have h := fun k => component_sem (hN k) (hbox i k) (fun h => hpull h i k) (hC k) (hi k) (collect_eq_some.1 hsrc k)
  refine ⟨⟨fun k => _, _, _⟩, if_pos fun k => (h k).1.trans (h k).2.1.symm, ?_, rfl, ?_⟩
  · intro x hx a
    obtain ⟨h1, h2, -⟩ := (h a).2.2 (x a) (hx a)
    refine ⟨h1, ?_⟩
    have := (h a).1
    simp only at this ⊢
    rw [this]; exact h2
  · intro x hx hx'
    obtain ⟨k, hk⟩ := hne
    obtain ⟨-, -, h1, h2⟩ := (h k).2.2 _ (hx k)
    obtain ⟨-, -, h1', h2'⟩ := (h k).2.2 _ (hx' k)
    have e := (h k).1
    simp only at h1' h2' e
    rw [e] at h1' h2'
    have := hN k
    rcases hC k with hc | hc | hc
    · have a1 := h2 hc
      have a2 := h2' hc
      rw [hc] at a2
      omega
    · exact hk hc
    · have a1 := h1 hc
      have a2 := h1' hc
      rw [hc] at a2
      omega

/-- the kernels of a list of pairs -/
theorem kernels_sem {N : Fin D → ℕ} (hN : ∀ k, 1 ≤ N k) {S : Stencil D} {p : String} {wr : Fin S.Q → Access D S.Q}
    (hbox : ∀ i k, (wr i).1 k = 0 ∨ (wr i).1 k = S.c i k) (hpull : p = "pull" → ∀ i k, (wr i).1 k = 0)
    (pairs : List (Vec D × Fin S.Q))
    (hp : ∀ q ∈ pairs, (∀ k, q.1 k = -1 ∨ q.1 k = 0 ∨ q.1 k = 1) ∧ (∃ k, q.1 k ≠ 0) ∧
      ∀ k, if q.1 k = 0 then S.c q.2 k = -1 ∨ S.c q.2 k = 0 ∨ S.c q.2 k = 1 else S.c q.2 k = q.1 k) :
    ∃ ks, compileKernels (fun a => N a + 2 * (1 : ℕ)) S p 1 wr pairs = .ok ks ∧
      (∀ k ∈ ks, InBounds (fun a => N a + 2 * (1 : ℕ)) k) ∧
      ∀ f f' : Vec D × Fin S.Q → V, runCopies (fun a => N a + 2 * (1 : ℕ)) S p 1 wr pairs f = some f' →
        ∀ runs : List (Kernel D S.Q × List (Event D)), runs.map Prod.fst = ks →
          (∀ r ∈ runs, Schedule (fun a => N a + 2 * (1 : ℕ)) r.1 r.2) → ∀ regs, runKernels regs runs f = f' := by
  induction pairs with
  | nil =>
    refine ⟨[], rfl, by simp, fun f f' hf runs hr _ regs => ?_⟩
    obtain rfl := List.map_eq_nil_iff.1 hr
    exact Option.some.inj hf
  | cons q rest ih =>
    obtain ⟨C, i⟩ := q
    obtain ⟨hC, hCne, hCi⟩ := hp _ (List.mem_cons_self ..)
    obtain ⟨ks, e1, e2, e3⟩ := ih fun q hq => hp q (List.mem_cons_of_mem _ hq)
    have hop : ∃ op, commSlices S p 1 wr C i = some op := by
      obtain ⟨op, -, h, -⟩ := copy_sem N hN hbox hpull hC hCi (fun _ => ())
      exact ⟨op, h⟩
    obtain ⟨op, hop⟩ := hop
    obtain ⟨k, hk, hb, hsl, hdis⟩ := pair_sem hN hbox hpull hC hCne hCi hop
    refine ⟨k :: ks, by simp only [compileKernels, hop, hk, e1], ?_, ?_⟩
    · intro k' hk'
      rcases List.mem_cons.1 hk' with rfl | h
      · exact hb
      · exact e2 k' h
    · intro f f' hf runs hr hs regs
      obtain ⟨⟨k₀, ev⟩, tl, rfl⟩ : ∃ r tl, runs = r :: tl := by
        cases runs with
        | nil => simp at hr
        | cons r tl => exact ⟨r, tl, rfl⟩
      simp only [List.map_cons, List.cons.injEq] at hr
      obtain ⟨rfl, hr⟩ := hr
      simp only [runCopies, hop, Option.bind_eq_bind, Option.bind_some, Option.bind_eq_some_iff] at hf
      obtain ⟨f₁, hf₁, hf⟩ := hf
      simp only [runKernels]
      rw [C98_kernel hk hb hdis hf₁ (hs _ (List.mem_cons_self ..)) regs]
      exact e3 f₁ f' hf tl hr (fun r hr => hs r (List.mem_cons_of_mem _ hr)) regs

/-- C98: for every size of the domain, periodicity, streaming pattern and time step (one ghost layer), the kernels are compiled, all
their accesses are inside of the array, and whatever the interleavings of their threads they leave the array in the state in which
the copies of slices leave it. -/
theorem C98_gpu_is_cpu (N : Fin D → ℕ) (hN : ∀ k, 1 ≤ N k) {S : Stencil D} {p : String} (hs : Supported S p) (per : Fin D → Bool)
    (pairs : List (Vec D × Fin S.Q)) (hpairs : ∀ q, q ∈ pairs ↔ q ∈ commPairs S per) (t : ℕ) :
    ∃ ks, compileHook N 1 S p pairs t = .ok ks ∧ (∀ k ∈ ks, InBounds (fun a => N a + 2 * (1 : ℕ)) k) ∧
      ∀ f : Vec D × Fin S.Q → V, ∃ f', periodicHook N 1 S p pairs t f = some f' ∧
        ∀ runs : List (Kernel D S.Q × List (Event D)), runs.map Prod.fst = ks →
          (∀ r ∈ runs, Schedule (fun a => N a + 2 * (1 : ℕ)) r.1 r.2) → ∀ regs, runKernels regs runs f = f' := by
  obtain ⟨ts, a, rd, wr, rd', e1, F, -, -, -⟩ := runFacts (G := Vec D) (V := V) hs t
  have hbox := wr_box F.acc F.write
  have hpull : p = "pull" → ∀ i k, (wr i).1 k = 0 := by
    rintro rfl i k
    have ha := F.acc
    have : ts = .both := by
      have : stepTimestep "pull" t = some .both := by simp [stepTimestep, getTimesteps, isInplace, streamingPatterns, Nat.mod_one]
      rw [e1] at this; exact Option.some.inj this
    subst this
    have hp : getAccessor D "pull" .both = some pull := rfl
    rw [hp] at ha
    cases ha
    have := collect_eq_some.1 F.write i
    rw [← Option.some.inj this]; rfl
  have hq : ∀ q ∈ pairs, (∀ k, q.1 k = -1 ∨ q.1 k = 0 ∨ q.1 k = 1) ∧ (∃ k, q.1 k ≠ 0) ∧
      ∀ k, if q.1 k = 0 then S.c q.2 k = -1 ∨ S.c q.2 k = 0 ∨ S.c q.2 k = 1 else S.c q.2 k = q.1 k := by
    intro q h
    obtain ⟨h1, h2, h3⟩ := mem_commPairs.1 ((hpairs q).1 h)
    exact ⟨h1, h2.2, h3⟩
  obtain ⟨ks, g1, g2, g3⟩ := kernels_sem (V := V) hN hbox hpull pairs hq
  refine ⟨ks, ?_, g2, fun f => ?_⟩
  · simp only [compileHook, e1, F.acc, F.write, Option.bind_eq_bind, Option.bind_some]
    exact_mod_cast g1
  · obtain ⟨f', h1, -, -⟩ := runCopies_sem (p := p) N hN F.wr_inj hbox hpull pairs hq f
    refine ⟨f', ?_, g3 f f' h1⟩
    simp only [periodicHook, e1, F.acc, F.write, Option.bind_eq_bind, Option.bind_some]
    exact_mod_cast h1

/-! ### interleavings exist; slices that overlap -/

/-- one thread after the other -/
def sequential (cells : List (Vec D)) : List (Event D) := cells.flatMap fun x => [Event.load x, Event.store x]

theorem sequential_ordered (cells : List (Vec D)) (l₁ : List (Event D)) (y : Vec D) (l₂ : List (Event D))
    (h : sequential cells = l₁ ++ Event.store y :: l₂) : Event.load y ∈ l₁ := by
  induction cells generalizing l₁ with
  | nil => simp [sequential] at h
  | cons x cs ih =>
    have h' : Event.load x :: Event.store x :: sequential cs = l₁ ++ Event.store y :: l₂ := h
    rcases l₁ with _ | ⟨e, _ | ⟨e', l₁⟩⟩
    · simp at h'
    · simp only [List.cons_append, List.nil_append, List.cons.injEq, Event.store.injEq] at h'
      obtain ⟨rfl, rfl, -⟩ := h'
      exact List.mem_cons_self ..
    · simp only [List.cons_append, List.cons.injEq] at h'
      exact List.mem_cons_of_mem _ (List.mem_cons_of_mem _ (ih l₁ h'.2.2))

theorem sequential_schedule {Q : ℕ} {L : Fin D → ℤ} {k : Kernel D Q} {cells : List (Vec D)}
    (h : ∀ x, x ∈ cells ↔ ∀ a, Iterates (L a) (k.slice a) (x a)) : Schedule L k (sequential cells) where
  complete x hx := List.mem_flatMap.2 ⟨x, (h x).2 hx, by simp⟩
  sound x hx := by
    obtain ⟨y, hy, he⟩ := List.mem_flatMap.1 hx
    simp only [List.mem_cons, reduceCtorEq, Event.store.injEq, List.not_mem_nil, or_false, false_or] at he
    exact he ▸ (h y).1 hy
  ordered l₁ x l₂ e := sequential_ordered cells l₁ x l₂ e

/-- a line of four cells: the first three are copied to the last three -/
def overlapping : CopyOp 1 1 := ⟨fun _ => .range 0 (some 3), fun _ => .range 1 none, 0⟩

/-- C98, why slices must not overlap: the kernel for slices with common cells is compiled without complaint, but two interleavings of
its threads leave different values, and only one of them those of the copy of the slice. -/
theorem C98_overlap : ∃ k, kernel (fun _ => 4) overlapping = .ok k ∧ InBounds (fun _ => 4) k ∧
    ∃ (f f' : Vec 1 × Fin 1 → ℤ) (e₁ e₂ : List (Event 1)), overlapping.exec (fun _ => 4) f = some f' ∧
      Schedule (fun _ => 4) k e₁ ∧ Schedule (fun _ => 4) k e₂ ∧ (∀ regs, (launch k e₁ f regs).1 (fun _ => 3, 0) = f' (fun _ => 3, 0)) ∧
      ∀ regs, (launch k e₂ f regs).1 (fun _ => 3, 0) ≠ f' (fun _ => 3, 0) := by
  have hk : kernel (fun _ => 4) overlapping = .ok ⟨fun _ => -1, overlapping.dst, 0⟩ := by
    simp only [kernel]
    rw [if_pos (by decide)]
    congr 1
  have hit : ∀ z : ℤ, Iterates 4 (.range 1 none) z ↔ z = 1 ∨ z = 2 ∨ z = 3 := by
    intro z
    simp only [Iterates, normalize, Sl.resolve, Option.getD_some]
    omega
  refine ⟨_, hk, ?_, fun s => s.1 0, _, sequential [fun _ => 3, fun _ => 2, fun _ => 1], sequential [fun _ => 1, fun _ => 2, fun _ => 3],
    if_pos (by decide), sequential_schedule fun x => ?_, sequential_schedule fun x => ?_, fun regs => ?_, fun regs => ?_⟩
  · intro x hx a
    have := (hit _).1 (hx a)
    simp only
    omega
  · have e : ∀ c : ℤ, x = (fun _ => c) ↔ x 0 = c := fun c => ⟨fun h => by rw [h], fun h => funext fun a => by rw [Subsingleton.elim a 0, h]⟩
    simp only [List.mem_cons, List.not_mem_nil, or_false, e, Fin.forall_fin_one, overlapping, hit]
    omega
  · have e : ∀ c : ℤ, x = (fun _ => c) ↔ x 0 = c := fun c => ⟨fun h => by rw [h], fun h => funext fun a => by rw [Subsingleton.elim a 0, h]⟩
    simp only [List.mem_cons, List.not_mem_nil, or_false, e, Fin.forall_fin_one, overlapping, hit]
  · have h : (launch (⟨fun _ => -1, overlapping.dst, 0⟩ : Kernel 1 1) (sequential [fun _ => 3, fun _ => 2, fun _ => 1]) (fun s => s.1 0)
        regs).1 (fun _ => 3, 0) = 2 := rfl
    exact h
  · have h : (launch (⟨fun _ => -1, overlapping.dst, 0⟩ : Kernel 1 1) (sequential [fun _ => 1, fun _ => 2, fun _ => 3]) (fun s => s.1 0)
        regs).1 (fun _ => 3, 0) = 0 := rfl
    rw [h]
    decide

/-- a kernel in bounds can be executed -/
theorem schedule_exists {Q : ℕ} {L : Fin D → ℤ} {k : Kernel D Q} (hb : InBounds L k) : ∃ events, Schedule L k events := by
  classical
  refine ⟨_, sequential_schedule (cells := ((Fintype.piFinset fun a => Finset.Ico 0 (L a)).filter
    fun x => ∀ a, Iterates (L a) (k.slice a) (x a)).toList) fun x => ?_⟩
  rw [Finset.mem_toList, Finset.mem_filter, and_iff_right_iff_imp, Fintype.mem_piFinset]
  exact fun h a => Finset.mem_Ico.2 (hb x h a).1

/-- a periodic domain of three by two cells, in-place pattern, odd time step: there are sixteen kernels -/
example : Supported exStencil "aa" ∧ ∃ ks, compileHook (fun a : Fin 2 => if a = 0 then 3 else 2) 1 exStencil "aa"
    (commPairs exStencil fun _ => true) 1 = .ok ks ∧ ks.length = 16 := by
  refine ⟨by decide +kernel, ?_⟩
  have h : (match compileHook (fun a : Fin 2 => if a = 0 then 3 else 2) 1 exStencil "aa" (commPairs exStencil fun _ => true) 1 with
    | .ok ks => ks.length == 16
    | .error _ => false) = true := by decide +kernel
  split at h
  · rename_i ks hks
    exact ⟨ks, hks, by simpa using h⟩
  · cases h

/-- slices of different sizes are rejected, as by numpy -/
example : kernel (fun _ => 5) (⟨fun _ => .range 0 (some 3), fun _ => .range 1 none, 0⟩ : CopyOp 1 1) = .error .assertion ∧
    (⟨fun _ => .range 0 (some 3), fun _ => .range 1 none, 0⟩ : CopyOp 1 1).exec (fun _ => 5) (fun _ => 0) = (none : Option (_ → ℤ)) :=
  ⟨by simp only [kernel]; rw [if_neg (by decide)], if_neg (by decide)⟩

end GpuCopy
end Lbm
