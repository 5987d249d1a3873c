import Verif.Containers.SharedVector
import Verif.Props.VectorAlias

/- C71: vectors over reference counted allocators. -/
namespace KTL

/-! ### Specification: sequences -/

/-- The meaning of the operations on sequences (see `Seqs.Step`). Which allocator a vector uses makes no difference. -/
def Seqs.ShStep (sz : Nat) (c : Seqs) (o : ShOp) (c' : Seqs) : Prop :=
  match o with
  | .fresh => c.Step sz .new c'
  | .like j => if j < c.xs.length then c.Step sz .new c' else c' = c
  | .use i o =>
    match c.xs[i]? with
    | some ys =>
      if o.single then ∃ ys' seen', Seqs.Step sz ⟨[ys], []⟩ o ⟨[ys'], seen'⟩ ∧ c' = { xs := c.xs.set i ys', seen := c.seen ++ seen' }
      else c' = c
    | none => c' = c
  | .copy j => c.Step sz (.copy j) c'
  | .copyWith j k => if k < c.xs.length then c.Step sz (.copy j) c' else c' = c
  | .move j => c.Step sz (.move j) c'
  | .copyAssign i j => c.Step sz (.copyAssign i j) c'
  | .moveAssign i j => if i = j then c' = c else c.Step sz (.moveAssign i j) c'
  | .destroy i => c.Step sz (.destroy i) c'

/-- `ops` can take the sequences from `c` to `c'`. -/
inductive Seqs.ShRun (sz : Nat) : Seqs → List ShOp → Seqs → Prop
  | nil (c) : ShRun sz c [] c
  | cons {c o c' os c''} : c.ShStep sz o c' → ShRun sz c' os c'' → ShRun sz c (o :: os) c''

/-- How many elements an operation asks for. -/
def ShOp.weight : ShOp → Nat
  | .use _ o => o.weight
  | _ => 0

/-- The sum over a program. -/
def shWeights : List ShOp → Nat
  | [] => 0
  | o :: os => o.weight + shWeights os

/-- The operation may allocate zero bytes (see C58 for compositions that cannot serve that). -/
def ShOp.mayBeEmpty : ShOp → Bool
  | .copy _ | .copyWith _ _ | .copyAssign _ _ => true
  | _ => false

/-! ### One vector in a pool with other blocks -/

section
variable {A : Allocator} {fA : Nat → Prop} {hA : Sound A fA} {b sz : Nat}

/-- An operation on one vector, whatever other blocks there are. -/
theorem vstep1 (T N : Nat) (s : A.St) (g : Ghost) (R : List (Nat × List UInt8)) (o : VOp) (ho : o.single = true) (hz : 0 < sz)
    (hfit : ∀ n, 0 < n → n ≤ 2 * N → sz * n < W64 ∧ fA (sz * n)) (hN : T + o.weight ≤ N) (hg : g.Ok sz T) :
    Triple (Pool hA b s (g.own ++ R)) (Vecs.step sz (A := A) { st := s, vs := [g.v] } o) (fun c x => ∃ g' : Ghost,
      (Seqs.Step sz ⟨[g.xs], []⟩ o ⟨[g'.xs], c.seen⟩ ∧ c.vs = [g'.v] ∧ g'.Ok sz (T + o.weight)) ∧ Pool hA b c.st (g'.own ++ R) x) := by
  have hW : ∀ n, n ≤ 2 * N → sz * n < W64 := fun n hn => by
    by_cases h : n = 0
    · subst h; rw [Nat.mul_zero]; decide
    · exact (hfit n (by omega) hn).1
  have hF : ∀ n, n ≠ 0 → n ≤ 2 * N → fA (sz * n) := fun n hn0 hn => (hfit n (by omega) hn).2
  have hC : sz * g.cap < W64 := hW _ (by have := hg.cap_le; omega)
  have hle := hg.size_le
  have hcl := hg.cap_le
  have skip : Seqs.Step sz ⟨[g.xs], []⟩ o ⟨[g.xs], []⟩ → Triple (Pool hA b s (g.own ++ R)) (pure { st := s, vs := [g.v] } : M (Vecs A)) (fun c x => ∃ g' : Ghost,
      (Seqs.Step sz ⟨[g.xs], []⟩ o ⟨[g'.xs], c.seen⟩ ∧ c.vs = [g'.v] ∧ g'.Ok sz (T + o.weight)) ∧ Pool hA b c.st (g'.own ++ R) x) := fun hS =>
    Triple.pure _ (fun x hp => ⟨g, ⟨hS, rfl, hg.mono (Nat.le_add_right _ _)⟩, hp⟩)
  cases o with
  | new | newSize _ | newFill _ _ | newRange _ | copy _ | move _ | copyAssign _ _ | moveAssign _ _ | destroy _ | pushFrom _ _ _ _ => cases ho
  | push i y =>
    cases i with
    | succ i => cases ho
    | zero =>
      simp only [Vecs.step, List.getElem?_cons_zero]
      by_cases hy : y.length = sz
      · rw [if_pos hy]
        have hgr := grown_le (n := 1) hg.rep.le hg.cap_le hg.size_le
        simp only [VOp.weight] at hN
        have hpos : grown g.cap g.xs.length 1 ≠ 0 := by unfold grown; have := hg.rep.le; split <;> omega
        refine Triple.bind (Vec.pushBack_spec (s := s) hz hg.rep hC y (.val y) (.inl rfl) hy
          (fun _ => hF _ hpos (by omega)) (hW _ (by omega))) (fun r => ?_)
        refine Triple.and fun hit => Triple.exists fun full => Triple.and fun hr => ?_
        refine Triple.bind (Vec.readAt_spec hr g.xs.length 1 r.1 sz (by simp) hit (by simp)) (fun z => ?_)
        refine Triple.and fun hz' => Triple.pure _ (fun x hp => ?_)
        refine ⟨⟨r.2.2, _, _, full⟩, ⟨?_, rfl, ⟨hr, hgr, ?_⟩⟩, hp⟩
        · simp only [Seqs.Step, List.getElem?_cons_zero, hy, if_true]
          rw [hz']; simp
        · simp [VOp.weight]; omega
      · rw [if_neg hy]
        exact skip (by simp only [Seqs.Step, List.getElem?_cons_zero, hy, if_false])
  | pushRange i ys =>
    cases i with
    | succ i => cases ho
    | zero =>
      simp only [Vecs.step, List.getElem?_cons_zero]
      by_cases hy : ∀ y ∈ ys, y.length = sz
      · rw [if_pos hy]
        have hgr := grown_le (n := ys.length) hg.rep.le hg.cap_le hg.size_le
        simp only [VOp.weight] at hN
        refine Triple.bind (Vec.pushRange_spec (s := s) hz hg.rep hC ys (.val ys.flatten) (.inl rfl) hy
          (fun hlt => hF _ (by unfold grown; have := hg.rep.le; split <;> omega) (by omega)) (hW _ (by omega))) (fun r => ?_)
        refine Triple.and fun hit => Triple.exists fun full => Triple.and fun hr => ?_
        refine Triple.bind (Vec.readAt_spec hr g.xs.length ys.length r.1 _ (by simp) hit rfl) (fun z => ?_)
        refine Triple.and fun hz' => Triple.pure _ (fun x hp => ?_)
        refine ⟨⟨r.2.2, _, _, full⟩, ⟨?_, rfl, ⟨hr, hgr, ?_⟩⟩, hp⟩
        · simp only [Seqs.Step, List.getElem?_cons_zero]
          rw [if_pos hy, hz']; simp
        · simp [VOp.weight]; omega
      · rw [if_neg hy]
        exact skip (by simp only [Seqs.Step, List.getElem?_cons_zero]; rw [if_neg hy])
  | erase i k =>
    cases i with
    | succ i => cases ho
    | zero =>
      simp only [Vecs.step, List.getElem?_cons_zero, hg.rep.size_eq hz]
      by_cases hk : k < g.xs.length
      · rw [if_pos hk, Vec.erase_eq hz hg.rep k hk]
        refine Triple.bind (Vec.eraseRange_spec hz hg.rep (hg.rep.pos_of_index hk) k 1 hk) (fun r => ?_)
        refine Triple.and fun hit => Triple.exists fun full => Triple.and fun hr => ?_
        have hl : (g.xs.take k ++ g.xs.drop (k + 1)).length = g.xs.length - 1 := by simp; omega
        refine Triple.bind (Vec.readAt_spec hr k (g.xs.length - 1 - k) r.1 _ (by rw [hl]; omega) hit.1 (by
          rw [hit.1, hr.fin, hl, Nat.sub_mul (g.xs.length - 1) k]; omega)) (fun z => ?_)
        refine Triple.and fun hz' => Triple.pure _ (fun x hp => ?_)
        have ez : z = (g.xs.drop (k + 1)).flatten := by
          rw [hz', List.drop_append, List.drop_of_length_le (by rw [List.length_take]; omega), List.length_take, Nat.min_eq_left (by omega)]
          rw [Nat.sub_self, List.drop_zero, List.nil_append, List.take_of_length_le (by simp; omega)]
        refine ⟨⟨r.2, _, _, full⟩, ⟨?_, rfl, ⟨hr, ?_, ?_⟩⟩, hp⟩
        · simp only [Seqs.Step, List.getElem?_cons_zero]
          rw [if_pos hk, ez, List.eraseIdx_eq_take_drop_succ]
          rfl
        · show g.cap ≤ _
          simp only [VOp.weight]; omega
        · show (g.xs.take k ++ g.xs.drop (k + 1)).length ≤ _
          rw [hl]; simp only [VOp.weight]; omega
      · rw [if_neg hk]
        exact skip (by simp only [Seqs.Step, List.getElem?_cons_zero, hk, if_false])
  | eraseRange i a n =>
    cases i with
    | succ i => cases ho
    | zero =>
      simp only [Vecs.step, List.getElem?_cons_zero, hg.rep.size_eq hz]
      by_cases hk : a + n ≤ g.xs.length
      · rw [if_pos hk]
        have hl : (g.xs.take a ++ g.xs.drop (a + n)).length = g.xs.length - n := by simp; omega
        have key : Triple (Pool hA b s (g.own ++ R)) (g.v.eraseRange sz (g.v.beg + a * sz) (g.v.beg + (a + n) * sz))
            (fun r z => r.1 = r.2.beg + a * sz ∧ ∃ full', r.2.Rep sz g.cap (g.xs.take a ++ g.xs.drop (a + n)) full' ∧
              Pool hA b s (r.2.own full' ++ R) z) := by
          by_cases hb : g.v.beg = 0
          · have hxe : g.xs = [] := List.length_eq_zero_iff.1 (by have := hg.rep.null hb; have := hg.rep.le; omega)
            have e1 : a = 0 := by rw [hxe] at hk; simp at hk; omega
            have e2 : n = 0 := by rw [hxe] at hk; simp at hk; omega
            subst e1 e2
            unfold Vec.eraseRange
            have e3 : (g.v.fin - (g.v.beg + (0 + 0) * sz)) / sz * sz = 0 := by rw [hg.rep.fin, hxe]; simp
            rw [e3]
            refine Triple.bind (R := fun _ => Pool hA b s (g.own ++ R)) (Triple.pure _ (fun z hz => hz)) (fun _ => Triple.pure _ (fun z hz => ⟨by simp, g.full, ?_, ?_⟩))
            · have := hg.rep
              simpa using this
            · simpa [Ghost.own, Vec.own, hb] using hz
          · exact (Vec.eraseRange_spec hz hg.rep hb a n hk).post (fun r z hz => ⟨hz.1.1, hz.2⟩)
        refine Triple.bind key (fun r => ?_)
        refine Triple.and fun hit => Triple.exists fun full => Triple.and fun hr => ?_
        refine Triple.bind (Vec.readAt_spec hr a (g.xs.length - n - a) r.1 _ (by rw [hl]; omega) hit (by
          rw [hit, hr.fin, hl, Nat.sub_mul (g.xs.length - n) a]; omega)) (fun z => ?_)
        refine Triple.and fun hz' => Triple.pure _ (fun x hp => ?_)
        have ez : z = (g.xs.drop (a + n)).flatten := by
          rw [hz', List.drop_append, List.drop_of_length_le (by rw [List.length_take]; omega), List.length_take, Nat.min_eq_left (by omega)]
          rw [Nat.sub_self, List.drop_zero, List.nil_append, List.take_of_length_le (by simp; omega)]
        refine ⟨⟨r.2, _, _, full⟩, ⟨?_, rfl, ⟨hr, ?_, ?_⟩⟩, hp⟩
        · simp only [Seqs.Step, List.getElem?_cons_zero]
          rw [if_pos hk, ez]
          rfl
        · show g.cap ≤ _
          simp only [VOp.weight]; omega
        · show (g.xs.take a ++ g.xs.drop (a + n)).length ≤ _
          rw [hl]; simp only [VOp.weight]; omega
      · rw [if_neg hk]
        exact skip (by simp only [Seqs.Step, List.getElem?_cons_zero, hk, if_false])
  | resize i n =>
    cases i with
    | succ i => cases ho
    | zero =>
      simp only [Vecs.step, List.getElem?_cons_zero]
      have hgr := resized_le (n := n) hg.cap_le
      replace hN : T + n ≤ N := hN
      refine Triple.bind (Vec.resize_spec (s := s) hz hg.rep hC n
        (fun hlt => hF _ (by unfold resized; split <;> omega) (by omega)) (hW _ (by omega))) (fun r => ?_)
      refine Triple.exists fun us => Triple.exists fun full => Triple.and fun hu => Triple.and fun hE => Triple.and fun hr => Triple.pure _ (fun x hp => ?_)
      refine ⟨⟨r.2, _, _, full⟩, ⟨?_, rfl, ⟨hr, hgr, ?_⟩⟩, hp⟩
      · simp only [Seqs.Step, List.getElem?_cons_zero]
        exact ⟨us, hu, hE, rfl⟩
      · show (g.xs.take n ++ us).length ≤ T + n
        rw [List.length_append, List.length_take, hu]
        omega
  | reserve i n =>
    cases i with
    | succ i => cases ho
    | zero =>
      simp only [Vecs.step, List.getElem?_cons_zero]
      replace hN : T + n ≤ N := hN
      refine Triple.bind (Vec.reserve_spec (s := s) hz hg.rep hC n
        (fun hlt => hF _ (by omega) (by omega)) (fun _ => hW _ (by omega))) (fun r => ?_)
      refine Triple.exists fun full => Triple.and fun hr => Triple.pure _ (fun x hp => ?_)
      refine ⟨⟨r.2, _, _, full⟩, ⟨rfl, rfl, ⟨hr, ?_, ?_⟩⟩, hp⟩
      · simp only [VOp.weight]; omega
      · show g.xs.length ≤ T + n
        omega
  | clear i =>
    cases i with
    | succ i => cases ho
    | zero =>
      exact Triple.pure _ (fun x hp => ⟨⟨g.v.clear, g.cap, [], g.full⟩, ⟨rfl, rfl, ⟨Vec.clear_rep hg.rep, hg.cap_le, by simp⟩⟩, hp⟩)
  | write i k y =>
    cases i with
    | succ i => cases ho
    | zero =>
      simp only [Vecs.step, List.getElem?_cons_zero, hg.rep.size_eq hz]
      by_cases hk : k < g.xs.length ∧ y.length = sz
      · rw [if_pos hk]
        refine Triple.bind (Vec.write_spec hg.rep k y hk.1 hk.2) (fun _ => ?_)
        refine Triple.exists fun full => Triple.and fun hr => Triple.pure _ (fun x hp => ?_)
        refine ⟨⟨g.v, g.cap, g.xs.set k y, full⟩, ⟨?_, rfl, ⟨hr, hg.cap_le, by rw [List.length_set]; exact hg.size_le⟩⟩, hp⟩
        simp only [Seqs.Step, List.getElem?_cons_zero]
        rw [if_pos hk]; rfl
      · rw [if_neg hk]
        exact skip (by simp only [Seqs.Step, List.getElem?_cons_zero]; rw [if_neg hk])
  | read i k =>
    cases i with
    | succ i => cases ho
    | zero =>
      simp only [Vecs.step, List.getElem?_cons_zero, hg.rep.size_eq hz]
      by_cases hk : k < g.xs.length
      · rw [if_pos hk]
        refine Triple.bind (Vec.readAt_spec hg.rep k 1 _ sz hk rfl (by simp)) (fun z => ?_)
        refine Triple.and fun hz' => Triple.pure _ (fun x hp => ?_)
        refine ⟨g, ⟨?_, rfl, hg.mono (Nat.le_add_right _ _)⟩, hp⟩
        simp only [Seqs.Step, List.getElem?_cons_zero, List.getElem?_eq_getElem hk]
        rw [hz', List.drop_eq_getElem_cons hk, List.take_succ_cons, List.take_zero, List.flatten_singleton]
      · rw [if_neg hk]
        exact skip (by simp only [Seqs.Step, List.getElem?_cons_zero, List.getElem?_eq_none (Nat.not_lt.1 hk)])
end

/-! ### The blocks of a program -/

section
variable {A : Allocator} {fA : Nat → Prop} {plat : Plat} {hA : Sound A fA}

/-- a block with an allocator whose clients have the blocks `R` -/
def shOne (plat : Plat) (hA : Sound A fA) (R : List (Nat × List UInt8)) (B : ShBlock A) : HProp :=
  fun x => B.addr ≠ 0 ∧ (Pool hA B.addr B.st R ∗ (bytes (B.addr + A.objSize) 16 ∗ mTok plat B.addr (Cascading.nodeSize A))) x

/-- all blocks, from number `j`; the clients of number `k` have the blocks `f k` -/
def shStar (plat : Plat) (hA : Sound A fA) (f : Nat → List (Nat × List UInt8)) : Nat → ShBlocks A → HProp
  | _, [] => emp
  | j, none :: bl => shStar plat hA f (j + 1) bl
  | j, some B :: bl => shOne plat hA (f j) B ∗ shStar plat hA f (j + 1) bl

theorem shStar_take {f : Nat → List (Nat × List UInt8)} {j : Nat} {bl : ShBlocks A} {k : Nat} {B : ShBlock A} (h : bl[k]? = some (some B)) :
    shStar plat hA f j bl = (shOne plat hA (f (j + k)) B ∗ shStar plat hA f j (bl.set k none)) := by
  induction bl generalizing j k with
  | nil => simp at h
  | cons o bl ih =>
    cases k with
    | zero =>
      simp only [List.getElem?_cons_zero, Option.some.injEq] at h
      subst h
      rfl
    | succ k =>
      rw [List.getElem?_cons_succ] at h
      have := ih (j := j + 1) h
      rw [show j + (k + 1) = j + 1 + k by omega]
      cases o with
      | none => exact this
      | some B' =>
        show (shOne plat hA (f j) B' ∗ shStar plat hA f (j + 1) bl) = (shOne plat hA (f (j + 1 + k)) B ∗ (shOne plat hA (f j) B' ∗ shStar plat hA f (j + 1) (bl.set k none)))
        rw [this]; ac_rfl

theorem shStar_put {f : Nat → List (Nat × List UInt8)} {j : Nat} {bl : ShBlocks A} {k : Nat} (h : k < bl.length) (B : ShBlock A) :
    shStar plat hA f j (bl.set k (some B)) = (shOne plat hA (f (j + k)) B ∗ shStar plat hA f j (bl.set k none)) := by
  rw [shStar_take (k := k) (B := B) (by rw [List.getElem?_set_self h]), List.set_set]

theorem shStar_congr {f f' : Nat → List (Nat × List UInt8)} {j : Nat} {bl : ShBlocks A}
    (h : ∀ k B, bl[k]? = some (some B) → (f (j + k)).Perm (f' (j + k))) : shStar plat hA f j bl = shStar plat hA f' j bl := by
  induction bl generalizing j with
  | nil => rfl
  | cons o bl ih =>
    have := ih (j := j + 1) (fun k B hk => by
      have := h (k + 1) B (by rw [List.getElem?_cons_succ]; exact hk)
      rwa [show j + (k + 1) = j + 1 + k by omega] at this)
    cases o with
    | none => exact this
    | some B =>
      show (shOne plat hA (f j) B ∗ shStar plat hA f (j + 1) bl) = (shOne plat hA (f' j) B ∗ shStar plat hA f' (j + 1) bl)
      rw [this]
      unfold shOne
      have h0 : (f j).Perm (f' j) := h 0 B rfl
      rw [Pool.perm h0]

theorem shStar_append {f : Nat → List (Nat × List UInt8)} {j : Nat} {bl : ShBlocks A} {B : ShBlock A} :
    shStar plat hA f j (bl ++ [some B]) = (shOne plat hA (f (j + bl.length)) B ∗ shStar plat hA f j bl) := by
  induction bl generalizing j with
  | nil => rfl
  | cons o bl ih =>
    have := ih (j := j + 1)
    rw [show j + (o :: bl).length = j + 1 + bl.length by simp only [List.length_cons]; omega]
    cases o with
    | none => exact this
    | some B' =>
      show (shOne plat hA (f j) B' ∗ shStar plat hA f (j + 1) (bl ++ [some B])) = (shOne plat hA (f (j + 1 + bl.length)) B ∗ (shOne plat hA (f j) B' ∗ shStar plat hA f (j + 1) bl))
      rw [this]; ac_rfl

/-- a block with `n` handles: its counter is right, and it is there if and only if there is a handle -/
def CntAt : Option (Option (ShBlock A)) → Nat → Prop
  | some (some B), n => B.count = n ∧ 0 < n
  | _, n => n = 0

/-- `hs` are the handles -/
def CntOk (bl : ShBlocks A) (hs : List Nat) : Prop := ∀ k, CntAt bl[k]? (hs.count k)

theorem CntOk.get {bl : ShBlocks A} {hs : List Nat} (h : CntOk bl hs) {k : Nat} (hk : k ∈ hs) :
    ∃ B, bl[k]? = some (some B) ∧ k < bl.length ∧ B.count = hs.count k := by
  have h1 := h k
  have h2 := List.count_pos_iff.2 hk
  cases e : bl[k]? with
  | none => rw [e] at h1; exact absurd h1 (by show ¬ _ = 0; omega)
  | some o =>
    cases o with
    | none => rw [e] at h1; exact absurd h1 (by show ¬ _ = 0; omega)
    | some B => rw [e] at h1; exact ⟨B, rfl, (List.getElem?_eq_some_iff.1 e).1, h1.1⟩

theorem CntOk.mem {bl : ShBlocks A} {hs : List Nat} (h : CntOk bl hs) {k : Nat} {B : ShBlock A} (hk : bl[k]? = some (some B)) : k ∈ hs := by
  have := h k
  rw [hk] at this
  exact List.count_pos_iff.1 this.2

theorem CntOk.perm {bl : ShBlocks A} {hs hs' : List Nat} (h : CntOk bl hs) (hp : hs.Perm hs') : CntOk bl hs' :=
  fun k => hp.count_eq k ▸ h k

/-- the state between two steps of a function: handles `hs`, client blocks `f` -/
def ShI (plat : Plat) (hA : Sound A fA) (bl : ShBlocks A) (hs : List Nat) (f : Nat → List (Nat × List UInt8)) : HProp :=
  fun x => CntOk bl hs ∧ shStar plat hA f 0 bl x

theorem ShI.congr {bl : ShBlocks A} {hs hs' : List Nat} {f f' : Nat → List (Nat × List UInt8)} (hp : hs.Perm hs') (hf : ∀ k ∈ hs, (f k).Perm (f' k)) {x : Heap}
    (h : ShI plat hA bl hs f x) : ShI plat hA bl hs' f' x := by
  refine ⟨h.1.perm hp, ?_⟩
  rw [← shStar_congr (f := f) (f' := f') (fun k B hk => ?_)]
  · exact h.2
  · rw [Nat.zero_add]; exact hf k (h.1.mem hk)

theorem sh_increment {bl : ShBlocks A} {hs : List Nat} {f : Nat → List (Nat × List UInt8)} {k : Nat} (hk : k ∈ hs) :
    Triple (ShI plat hA bl hs f) (bl.increment k) (fun bl' x => bl'.length = bl.length ∧ ShI plat hA bl' (k :: hs) f x) := by
  refine Triple.and fun hc => ?_
  obtain ⟨B, hB, hlt, hcnt⟩ := hc.get hk
  unfold ShBlocks.increment
  rw [hB]
  refine Triple.pure _ (fun x hx => ⟨by simp, fun j => ?_, ?_⟩)
  · by_cases hj : k = j
    · subst hj
      rw [List.getElem?_set_self hlt]
      exact ⟨by simp [hcnt], by simp⟩
    · rw [List.getElem?_set_ne hj, List.count_cons_of_ne hj]
      exact hc j
  · rw [shStar_take hB] at hx
    rw [shStar_put hlt]
    exact hx

theorem sh_decrement {sys : Sys} {bl : ShBlocks A} {hs hs' : List Nat} {f : Nat → List (Nat × List UInt8)} {k : Nat} (hp : hs.Perm (k :: hs'))
    (hf : k ∉ hs' → f k = []) :
    Triple (ShI sys.plat hA bl hs f) (bl.decrement sys k) (fun bl' x => bl'.length = bl.length ∧ ShI sys.plat hA bl' hs' f x) := by
  refine Triple.and fun hc => ?_
  replace hc := hc.perm hp
  obtain ⟨B, hB, hlt, hcnt⟩ := hc.get (k := k) (by simp)
  rw [List.count_cons_self] at hcnt
  unfold ShBlocks.decrement
  rw [hB]
  have other : ∀ j, k ≠ j → CntAt bl[j]? (hs'.count j) := fun j hj => by
    have := hc j
    rwa [List.count_cons_of_ne hj] at this
  show Triple _ (if B.count = 1 then _ else _) _
  by_cases h1 : B.count = 1
  · rw [if_pos h1, shStar_take hB, Nat.zero_add]
    have hk' : k ∉ hs' := by rw [← List.count_eq_zero]; omega
    rw [hf hk']
    have hdel : Triple (shOne sys.plat hA [] B ∗ shStar sys.plat hA f 0 (bl.set k none)) (alignedDelete sys B.addr (A.fini B.st))
        (fun _ => shStar sys.plat hA f 0 (bl.set k none)) := by
      unfold shOne
      rw [star_and]
      refine Triple.and fun h0 => ?_
      have := (Cascading.alignedDelete_spec sys hA B.addr h0 B.st).frame (shStar sys.plat hA f 0 (bl.set k none))
      rw [emp_star] at this
      refine this.pre (fun x hx => ?_)
      unfold Pool at hx
      rw [blocksV_nil, star_emp] at hx
      exact hx
    refine Triple.bind hdel (fun _ => Triple.pure _ (fun x hx => ⟨by simp, fun j => ?_, hx⟩))
    by_cases hj : k = j
    · subst hj
      rw [List.getElem?_set_self hlt]
      exact List.count_eq_zero.2 hk'
    · rw [List.getElem?_set_ne hj]
      exact other j hj
  · rw [if_neg h1]
    refine Triple.pure _ (fun x hx => ⟨by simp, fun j => ?_, ?_⟩)
    · by_cases hj : k = j
      · subst hj
        rw [List.getElem?_set_self hlt]
        exact ⟨by simp [hcnt], by omega⟩
      · rw [List.getElem?_set_ne hj]
        exact other j hj
    · rw [shStar_take hB] at hx
      rw [shStar_put hlt]
      exact hx

theorem sh_create {sys : Sys} {bl : ShBlocks A} {hs : List Nat} {f : Nat → List (Nat × List UInt8)} (hsz : MallocFits sys.plat (Cascading.nodeSize A))
    (hf : f bl.length = []) :
    Triple (ShI sys.plat hA bl hs f) (bl.create sys) (fun bl' => ShI sys.plat hA bl' (bl.length :: hs) f) := by
  refine Triple.and fun hc => ?_
  have hnew : Triple (shStar sys.plat hA f 0 bl) (Cascading.newNode sys A) (fun nd x => shStar sys.plat hA f 0 (bl ++ [some ⟨nd.addr, nd.st, 1⟩]) x) := by
    have := (Cascading.newNode_spec sys hA hsz).frame (shStar sys.plat hA f 0 bl)
    rw [emp_star] at this
    refine this.post (fun nd x hx => ?_)
    rw [star_and] at hx
    rw [shStar_append, Nat.zero_add, hf]
    unfold shOne
    rw [star_and]
    refine ⟨hx.1.2, ?_⟩
    unfold Pool
    rw [List.map_nil, blocksV_nil, star_emp]
    exact hx.2
  have := Triple.bind hnew (f := fun nd => (pure (bl ++ [some ⟨nd.addr, nd.st, 1⟩]) : M (ShBlocks A))) (Q := fun bl' => ShI sys.plat hA bl' (bl.length :: hs) f)
    (fun nd => Triple.pure _ (fun x hx => ⟨fun j => ?_, hx⟩))
  · simp only [Cascading.newNode, bind_assoc, pure_bind] at this
    exact this
  · have hno : bl.length ∉ hs := fun h => by
      obtain ⟨B, _, hlt, _⟩ := hc.get h
      omega
    rcases Nat.lt_trichotomy j bl.length with hj | hj | hj
    · rw [List.getElem?_append_left hj]
      rw [List.count_cons_of_ne (by omega)]
      exact hc j
    · subst hj
      simp only [List.getElem?_append_right (Nat.le_refl _), Nat.sub_self, List.getElem?_cons_zero]
      exact ⟨by rw [List.count_cons_self, List.count_eq_zero.2 hno], by simp⟩
    · rw [List.getElem?_eq_none (by simp; omega), List.count_cons_of_ne (by omega)]
      have := hc j
      rwa [List.getElem?_eq_none (by omega)] at this

/-- a call through a handle; the other blocks may be needed too -/
theorem sh_useF {α} {bl : ShBlocks A} {hs : List Nat} {f : Nat → List (Nat × List UInt8)} {k : Nat} (hk : k ∈ hs) {g : A.St → M (A.St × α)}
    {P : α → List (Nat × List UInt8) → Prop}
    (h : ∀ B, CntOk bl hs → bl[k]? = some (some B) → Triple (Pool hA B.addr B.st (f k) ∗ shStar plat hA f 0 (bl.set k none)) (g B.st)
      (fun r x => ∃ R', P r.2 R' ∧ (Pool hA B.addr r.1 R' ∗ shStar plat hA f 0 (bl.set k none)) x)) :
    Triple (ShI plat hA bl hs f) (bl.use k g) (fun r x => ∃ R', P r.2 R' ∧ ShI plat hA r.1 hs (upd f k R') x) := by
  refine Triple.and fun hc => ?_
  obtain ⟨B, hB, hlt, hcnt⟩ := hc.get hk
  unfold ShBlocks.use
  rw [hB, shStar_take hB, Nat.zero_add]
  have hu : Triple (shOne plat hA (f k) B ∗ shStar plat hA f 0 (bl.set k none)) (g B.st) (fun r x => ∃ R', P r.2 R' ∧
      (shOne plat hA R' { B with st := r.1 } ∗ shStar plat hA f 0 (bl.set k none)) x) := by
    unfold shOne
    rw [star_and]
    refine Triple.and fun h0 => ?_
    have := (h B hc hB).frame (bytes (B.addr + A.objSize) 16 ∗ mTok plat B.addr (Cascading.nodeSize A))
    rw [show ((Pool hA B.addr B.st (f k) ∗ shStar plat hA f 0 (bl.set k none)) ∗ (bytes (B.addr + A.objSize) 16 ∗ mTok plat B.addr (Cascading.nodeSize A))) =
      ((Pool hA B.addr B.st (f k) ∗ (bytes (B.addr + A.objSize) 16 ∗ mTok plat B.addr (Cascading.nodeSize A))) ∗ shStar plat hA f 0 (bl.set k none)) by ac_rfl] at this
    refine this.post (fun r x hx => ?_)
    rw [star_exists] at hx
    obtain ⟨R', hx⟩ := hx
    rw [star_and] at hx
    refine ⟨R', hx.1, ?_⟩
    rw [star_and]
    refine ⟨h0, ?_⟩
    rw [show ((Pool hA B.addr r.1 R' ∗ (bytes (B.addr + A.objSize) 16 ∗ mTok plat B.addr (Cascading.nodeSize A))) ∗ shStar plat hA f 0 (bl.set k none)) =
      ((Pool hA B.addr r.1 R' ∗ shStar plat hA f 0 (bl.set k none)) ∗ (bytes (B.addr + A.objSize) 16 ∗ mTok plat B.addr (Cascading.nodeSize A))) by ac_rfl]
    exact hx.2
  refine Triple.bind hu (fun r => ?_)
  refine Triple.exists fun R' => Triple.and fun hP => Triple.pure _ (fun x hx => ⟨R', hP, fun j => ?_, ?_⟩)
  · by_cases hj : k = j
    · subst hj
      show CntAt (bl.set k _)[k]? _
      rw [List.getElem?_set_self hlt]
      exact ⟨hcnt, List.count_pos_iff.2 hk⟩
    · show CntAt (bl.set k _)[j]? _
      rw [List.getElem?_set_ne hj]
      exact hc j
  · show shStar plat hA (upd f k R') 0 (bl.set k _) x
    rw [shStar_put hlt, Nat.zero_add, upd, if_pos rfl, shStar_congr (f := upd f k R') (f' := f)]
    · exact hx
    · intro j B' hj
      rw [Nat.zero_add]
      by_cases hjk : k = j
      · subst hjk
        rw [List.getElem?_set_self hlt] at hj
        cases hj
      · rw [upd, if_neg (Ne.symm hjk)]

/-- a call through a handle -/
theorem sh_use {α} {bl : ShBlocks A} {hs : List Nat} {f : Nat → List (Nat × List UInt8)} {k : Nat} (hk : k ∈ hs) {g : A.St → M (A.St × α)}
    {P : α → List (Nat × List UInt8) → Prop}
    (h : ∀ b s, Triple (Pool hA b s (f k)) (g s) (fun r x => ∃ R', P r.2 R' ∧ Pool hA b r.1 R' x)) :
    Triple (ShI plat hA bl hs f) (bl.use k g) (fun r x => ∃ R', P r.2 R' ∧ ShI plat hA r.1 hs (upd f k R') x) :=
  sh_useF hk (fun B _ _ => ((h B.addr B.st).frame _).post (fun r x hx => by
    rw [star_exists] at hx
    obtain ⟨R', hx⟩ := hx
    rw [star_and] at hx
    exact ⟨R', hx.1, hx.2⟩))

/-- a call through a handle of block `l` that reads the memory of the clients of block `k` -/
theorem sh_use2 {α} {bl : ShBlocks A} {hs : List Nat} {f : Nat → List (Nat × List UInt8)} {k l : Nat} (hk : k ∈ hs) (hl : l ∈ hs) (hkl : k ≠ l)
    {g : A.St → M (A.St × α)} {P : α → List (Nat × List UInt8) → Prop}
    (h : ∀ b s b' t, Triple (Pool hA b s (f k) ∗ Pool hA b' t (f l)) (g t) (fun r x => ∃ R', P r.2 R' ∧ (Pool hA b s (f k) ∗ Pool hA b' r.1 R') x)) :
    Triple (ShI plat hA bl hs f) (bl.use l g) (fun r x => ∃ R', P r.2 R' ∧ ShI plat hA r.1 hs (upd f l R') x) := by
  refine sh_useF hl (fun B hc hB => ?_)
  obtain ⟨C, hC, hlt, _⟩ := hc.get hk
  have hC' : (bl.set l none)[k]? = some (some C) := by rw [List.getElem?_set_ne (Ne.symm hkl)]; exact hC
  rw [shStar_take hC', Nat.zero_add]
  unfold shOne
  rw [star_and]
  have e1 : ∀ p q r u : HProp, (p ∗ ((q ∗ r) ∗ u)) = ((q ∗ p) ∗ (r ∗ u)) := fun p q r u => by ac_rfl
  have := (h C.addr C.st B.addr B.st).frame ((bytes (C.addr + A.objSize) 16 ∗ mTok plat C.addr (Cascading.nodeSize A)) ∗ shStar plat hA f 0 ((bl.set l none).set k none))
  rw [star_comm, star_and]
  refine Triple.and fun h0 => ?_
  rw [star_comm, e1]
  refine this.post (fun r x hx => ?_)
  rw [star_exists] at hx
  obtain ⟨R', hx⟩ := hx
  rw [star_and] at hx
  refine ⟨R', hx.1, ?_⟩
  rw [star_comm, star_and]
  refine ⟨h0, ?_⟩
  rw [star_comm, e1]
  exact hx.2

theorem sh_assign {sys : Sys} {bl : ShBlocks A} {hs : List Nat} {f : Nat → List (Nat × List UInt8)} {k l : Nat} (hl : l ∈ hs) (hf : k ∉ hs → f k = []) :
    Triple (ShI sys.plat hA bl (k :: hs) f) (bl.assign sys k l) (fun bl' => ShI sys.plat hA bl' (l :: hs) f) := by
  unfold ShBlocks.assign
  refine Triple.bind (sh_decrement (.refl _) hf) (fun b1 => Triple.and fun _ => ?_)
  exact (sh_increment hl).post (fun _ x hx => hx.2)
end

/-! ### The vectors of a program -/

/-- what the vectors with block `k` have -/
def ownAt (Γ : List (Nat × Ghost)) (k : Nat) : List (Nat × List UInt8) := (Γ.filter (fun p => p.1 == k)).flatMap (fun p => p.2.own)

theorem ownAt_cons (l : Nat) (g : Ghost) (Γ : List (Nat × Ghost)) (k : Nat) : ownAt ((l, g) :: Γ) k = if l = k then g.own ++ ownAt Γ k else ownAt Γ k := by
  unfold ownAt
  by_cases h : l = k <;> simp [h]

theorem ownAt_self (g : Ghost) (Γ : List (Nat × Ghost)) (k : Nat) : ownAt ((k, g) :: Γ) k = g.own ++ ownAt Γ k := by rw [ownAt_cons, if_pos rfl]

theorem ownAt_perm {Γ Δ : List (Nat × Ghost)} (h : Γ.Perm Δ) (k : Nat) : (ownAt Γ k).Perm (ownAt Δ k) := (h.filter _).flatMap_right _

theorem ownAt_none {Γ : List (Nat × Ghost)} {k : Nat} (h : k ∉ Γ.map Prod.fst) : ownAt Γ k = [] := by
  unfold ownAt
  rw [List.filter_eq_nil_iff.2, List.flatMap_nil]
  intro p hp he
  exact h (List.mem_map.2 ⟨p, hp, by simpa using he⟩)

theorem ownAt_mem {Γ : List (Nat × Ghost)} {k : Nat} {g : Ghost} (h : (k, g) ∈ Γ) : ∀ y ∈ g.own, y ∈ ownAt Γ k := fun _ hy =>
  List.mem_flatMap.2 ⟨(k, g), List.mem_filter.2 ⟨h, by simp⟩, hy⟩

/-- two positions of a list -/
theorem perm_set_two {α} {l : List α} {i j : Nat} {a b : α} (hi : l[i]? = some a) (hj : l[j]? = some b) (hij : i ≠ j) :
    ∃ r, l.Perm (a :: b :: r) ∧ ∀ a' b', ((l.set i a').set j b').Perm (a' :: b' :: r) := by
  induction l generalizing i j with
  | nil => simp at hi
  | cons x l ih =>
    cases i with
    | zero =>
      cases j with
      | zero => exact absurd rfl hij
      | succ j =>
        obtain rfl : x = a := by simpa using hi
        rw [List.getElem?_cons_succ] at hj
        exact ⟨l.eraseIdx j, (perm_eraseIdx hj).cons _, fun a' b' => (perm_set hj).cons _⟩
    | succ i =>
      rw [List.getElem?_cons_succ] at hi
      cases j with
      | zero =>
        obtain rfl : x = b := by simpa using hj
        exact ⟨l.eraseIdx i, ((perm_eraseIdx hi).cons _).trans (.swap _ _ _), fun a' b' => ((perm_set hi).cons _).trans (.swap _ _ _)⟩
      | succ j =>
        rw [List.getElem?_cons_succ] at hj
        obtain ⟨r, h1, h2⟩ := ih hi hj (by omega)
        have sw : ∀ a b : α, (x :: a :: b :: r).Perm (a :: b :: x :: r) := fun a b => (List.Perm.swap _ _ _).trans (.cons _ (.swap _ _ _))
        exact ⟨x :: r, (h1.cons _).trans (sw _ _), fun a' b' => ((h2 a' b').cons _).trans (sw _ _)⟩

/-- the copying constructor of a range, where the range is a vector -/
theorem Vec.ofRangeOf_spec {A : Allocator} {fA : Nat → Prop} {hA : Sound A fA} {b sz cap : Nat} {s : A.St} {v : Vec} {xs : List (List UInt8)} {full : List UInt8}
    {R : List (Nat × List UInt8)} (hz : 0 < sz) (hv : v.Rep sz cap xs full) (hf : fA (sz * xs.length)) (hn : sz * xs.length < W64)
    (hR : ∀ y ∈ v.own full, y ∈ R) :
    Triple (Pool hA b s R) (Vec.ofRange sz A s (v.size sz) (.ref v.beg)) (fun r x => ∃ full', r.2.Rep sz xs.length xs full' ∧
      Pool hA b r.1 (r.2.own full' ++ R) x) := by
  rw [hv.size_eq hz]
  by_cases hb : v.beg = 0
  · have hxe : xs = [] := List.length_eq_zero_iff.1 (by have := hv.null hb; have := hv.le; omega)
    refine Triple.bind (Vec.ofSize_spec (sz := sz) xs.length hf hn) (fun r => ?_)
    refine Triple.exists fun full => Triple.exists fun us => Triple.and fun hu => Triple.and fun hr => ?_
    have hue : us = [] := List.length_eq_zero_iff.1 (by rw [hu, hxe]; rfl)
    rw [hxe] at hr ⊢
    subst hue
    show Triple _ (M.memcpy r.2.beg v.beg (([] : List (List UInt8)).length * sz) >>= _) _
    unfold M.memcpy
    rw [List.length_nil, Nat.zero_mul, if_neg (by omega)]
    exact Triple.pure _ (fun z hz => ⟨full, hr, hz⟩)
  · exact Vec.ofRange_spec hz xs (.ref (v.beg + 0))
      (.inr ⟨v.beg, full, 0, rfl, hR _ (by rw [Vec.own_pos hb]; simp),
        by rw [hv.elems.length, hv.len, Nat.zero_add]; exact hv.mul_le, by rw [hv.elems.length, List.drop_zero, hv.data]⟩)
      hv.elems hf hn

/-- the program and its sequences -/
def ShInv {A : Allocator} {fA : Nat → Prop} (plat : Plat) (hA : Sound A fA) (sz T : Nat) (c : ShVecs A) (S : Seqs) : HProp := fun x =>
  ∃ Γ : List (Nat × Ghost), c.vs = Γ.map (fun p => (p.1, p.2.v)) ∧ S.xs = Γ.map (fun p => p.2.xs) ∧ c.seen = S.seen ∧
    (∀ p ∈ Γ, p.2.Ok sz T) ∧ ShI plat hA c.bl (Γ.map Prod.fst) (ownAt Γ) x

section
variable {A : Allocator} {fA : Nat → Prop} {hA : Sound A fA} {sz : Nat}

theorem ShInv.get {c : ShVecs A} {S : Seqs} {Γ : List (Nat × Ghost)} (hv : c.vs = Γ.map (fun p => (p.1, p.2.v))) (hx : S.xs = Γ.map (fun p => p.2.xs)) (i : Nat) :
    (Γ[i]? = none ∧ c.vs[i]? = none ∧ S.xs[i]? = none) ∨ ∃ k g, Γ[i]? = some (k, g) ∧ (k, g) ∈ Γ ∧ c.vs[i]? = some (k, g.v) ∧ S.xs[i]? = some g.xs := by
  rw [hv, hx, List.getElem?_map, List.getElem?_map]
  cases h : Γ[i]? with
  | none => exact .inl ⟨rfl, rfl, rfl⟩
  | some p => exact .inr ⟨p.1, p.2, rfl, List.mem_of_getElem? h, rfl, rfl⟩

theorem sh_free {plat : Plat} {c : ShVecs A} {hs : List Nat} {k : Nat} {g : Ghost} {Δ : List (Nat × Ghost)} {T : Nat} (hk : k ∈ hs) (hz : 0 < sz)
    (hg : g.Ok sz T) (hC : sz * g.cap < W64) :
    Triple (ShI plat hA c.bl hs (ownAt ((k, g) :: Δ))) (c.free sz k g.v) (fun bl' => ShI plat hA bl' hs (ownAt Δ)) := by
  unfold ShVecs.free
  refine Triple.bind (sh_use (P := fun _ R' => R' = ownAt Δ k) hk (fun b s => ?_)) (fun r => ?_)
  · rw [ownAt_self]
    exact Triple.bind (Vec.destroy_spec (R := ownAt Δ k) hz hg.rep hC) (fun s' => Triple.pure _ (fun x hx => ⟨_, rfl, hx⟩))
  · refine Triple.exists fun R' => Triple.and fun hR => Triple.pure _ (fun x hx => hx.congr (.refl _) (fun j _ => ?_))
    subst hR
    by_cases hj : j = k
    · subst hj; rw [upd, if_pos rfl]
    · rw [upd, if_neg hj, ownAt_cons, if_neg (Ne.symm hj)]

theorem shstep (sys : Sys) (hnode : MallocFits sys.plat (Cascading.nodeSize A)) (T N : Nat) (c : ShVecs A) (S : Seqs) (o : ShOp) (hz : 0 < sz)
    (hfit : ∀ n, 0 < n → n ≤ 2 * N → sz * n < W64 ∧ fA (sz * n)) (h0 : o.mayBeEmpty = true → fA 0) (hN : T + o.weight ≤ N) :
    Triple (ShInv sys.plat hA sz T c S) (c.step sys sz o) (fun c' x => ∃ S', S.ShStep sz o S' ∧ ShInv sys.plat hA sz (T + o.weight) c' S' x) := by
  refine Triple.exists fun Γ => Triple.and fun hv => Triple.and fun hx => Triple.and fun hseen => Triple.and fun hok => ?_
  have hW : ∀ n, n ≤ 2 * N → sz * n < W64 := fun n hn => by
    by_cases h : n = 0
    · subst h; rw [Nat.mul_zero]; decide
    · exact (hfit n (by omega) hn).1
  have hF : ∀ n, (n = 0 → fA 0) → n ≤ 2 * N → fA (sz * n) := fun n hn0 hn => by
    by_cases h : n = 0
    · subst h; rw [Nat.mul_zero]; exact hn0 rfl
    · exact (hfit n (by omega) hn).2
  have hC : ∀ p ∈ Γ, sz * p.2.cap < W64 := fun p hp => hW _ (by have := (hok p hp).cap_le; omega)
  have hL : ∀ p ∈ Γ, p.2.xs.length ≤ 2 * N := fun p hp => by have := (hok p hp).size_le; omega
  have fin : ∀ (Γ' : List (Nat × Ghost)) (c' : ShVecs A) (S' : Seqs) (hs : List Nat) (f : Nat → List (Nat × List UInt8)) (x : Heap), ShI sys.plat hA c'.bl hs f x →
      hs.Perm (Γ'.map Prod.fst) → (∀ k ∈ hs, (f k).Perm (ownAt Γ' k)) → c'.vs = Γ'.map (fun p => (p.1, p.2.v)) → S'.xs = Γ'.map (fun p => p.2.xs) →
      c'.seen = S'.seen → (∀ p ∈ Γ', p.2.Ok sz (T + o.weight)) → S.ShStep sz o S' →
      ∃ S', S.ShStep sz o S' ∧ ShInv sys.plat hA sz (T + o.weight) c' S' x := fun Γ' c' S' hs f x hI hp hf h1 h2 h3 h4 h5 =>
    ⟨S', h5, Γ', h1, h2, h3, h4, hI.congr hp hf⟩
  have hok' : ∀ p ∈ Γ, p.2.Ok sz (T + o.weight) := fun p hp => (hok p hp).mono (Nat.le_add_right _ _)
  have hnull : ∀ T', (⟨Vec.null, 0, [], []⟩ : Ghost).Ok sz T' := fun T' => ⟨Vec.null_rep, by simp, by simp⟩
  have skip : S.ShStep sz o S → Triple (ShI sys.plat hA c.bl (Γ.map Prod.fst) (ownAt Γ)) (pure c : M (ShVecs A))
      (fun c' x => ∃ S', S.ShStep sz o S' ∧ ShInv sys.plat hA sz (T + o.weight) c' S' x) := fun hS =>
    Triple.pure _ (fun x hp => fin Γ c S _ _ x hp (.refl _) (fun _ _ => .refl _) hv hx hseen hok' hS)
  have nown : ∀ (l : Nat) (Δ : List (Nat × Ghost)) (k : Nat), ownAt ((l, (⟨Vec.null, 0, [], []⟩ : Ghost)) :: Δ) k = ownAt Δ k := fun l Δ k => by
    rw [ownAt_cons]; split <;> rfl
  have memset : ∀ {i : Nat} {q : Nat × Ghost}, q.2.Ok sz (T + o.weight) → ∀ {L : List (Nat × Ghost)}, (∀ p ∈ L, p.2.Ok sz (T + o.weight)) → ∀ p ∈ L.set i q, p.2.Ok sz (T + o.weight) :=
    fun hq _ hL' p hp => (List.mem_or_eq_of_mem_set hp).elim (hL' p) (fun e => e ▸ hq)
  have memapp : ∀ {q : Nat × Ghost}, q.2.Ok sz (T + o.weight) → ∀ {L : List (Nat × Ghost)}, (∀ p ∈ L, p.2.Ok sz (T + o.weight)) → ∀ p ∈ L ++ [q], p.2.Ok sz (T + o.weight) :=
    fun hq _ hL' p hp => (List.mem_append.1 hp).elim (hL' p) (fun e => List.mem_singleton.1 e ▸ hq)
  have ptail : ∀ (L : List (Nat × Ghost)) (q : Nat × Ghost), (L ++ [q]).Perm (q :: L) := fun L q => List.perm_append_comm (l₁ := L) (l₂ := [q])
  have pfst : ∀ (l : Nat) (g : Ghost), (l :: Γ.map Prod.fst).Perm ((Γ ++ [(l, g)]).map Prod.fst) := fun l g => ((ptail Γ (l, g)).map Prod.fst).symm
  -- the copying constructors
  have hcopy : o.mayBeEmpty = true → ∀ {k : Nat} {g : Ghost} {l : Nat}, (k, g) ∈ Γ → l ∈ Γ.map Prod.fst →
      S.ShStep sz o { S with xs := S.xs ++ [g.xs] } →
      Triple (ShI sys.plat hA c.bl (Γ.map Prod.fst) (ownAt Γ)) (c.copyFrom sz g.v l)
        (fun c' x => ∃ S', S.ShStep sz o S' ∧ ShInv sys.plat hA sz (T + o.weight) c' S' x) := by
    intro he k g l hg hl hS
    have hfit' : fA (sz * g.xs.length) := hF _ (fun _ => h0 he) (hL _ hg)
    have hn' := hW _ (hL _ hg)
    have hgr := (hok _ hg).rep
    have hR : ∀ y ∈ g.v.own g.full, y ∈ ownAt Γ k := ownAt_mem hg
    unfold ShVecs.copyFrom
    refine Triple.bind (sh_increment hl) (fun b1 => Triple.and fun _ => ?_)
    have hu : Triple (ShI sys.plat hA b1 (l :: Γ.map Prod.fst) (ownAt Γ)) (b1.use l fun s => Vec.copy sz A s g.v)
        (fun r x => ∃ R', (∃ full', r.2.Rep sz g.xs.length g.xs full' ∧ R' = r.2.own full' ++ ownAt Γ l) ∧
          ShI sys.plat hA r.1 (l :: Γ.map Prod.fst) (upd (ownAt Γ) l R') x) := by
      by_cases hkl : k = l
      · subst hkl
        refine sh_use (P := fun (v' : Vec) R' => ∃ full', v'.Rep sz g.xs.length g.xs full' ∧ R' = v'.own full' ++ ownAt Γ k) (by simp) (fun b s => ?_)
        exact (Vec.copy_spec hz hgr hfit' hn' hR).post (fun r x ⟨full', h1, h2⟩ => ⟨_, ⟨full', h1, rfl⟩, h2⟩)
      · refine sh_use2 (P := fun (v' : Vec) R' => ∃ full', v'.Rep sz g.xs.length g.xs full' ∧ R' = v'.own full' ++ ownAt Γ l)
          (k := k) (List.mem_cons_of_mem _ (List.mem_map.2 ⟨_, hg, rfl⟩)) (by simp) hkl (fun b s b' t => ?_)
        exact (Vec.crossCopy_spec hz hgr hfit' hn' hR).post (fun r x ⟨full', h1, h2⟩ => ⟨_, ⟨full', h1, rfl⟩, h2⟩)
    refine Triple.bind hu (fun r => Triple.exists fun R' => Triple.and fun ⟨full', hr, hR'⟩ => Triple.pure _ (fun x hx' => ?_))
    subst hR'
    refine fin (Γ ++ [(l, ⟨r.2, _, _, full'⟩)]) _ { S with xs := S.xs ++ [g.xs] } _ _ x hx' ?_ (fun j _ => ?_) (by simp [hv]) (by simp [hx]) hseen (memapp ⟨hr, ?_, ?_⟩ hok') hS
    · exact pfst _ _
    · refine List.Perm.trans ?_ (ownAt_perm (ptail Γ _) j).symm
      rw [ownAt_cons, upd]
      by_cases hj : j = l
      · subst hj; rw [if_pos rfl, if_pos rfl]; rfl
      · rw [if_neg hj, if_neg (Ne.symm hj)]
    · have : g.xs.length ≤ T := (hok _ hg).size_le
      show g.xs.length ≤ _; omega
    · have : g.xs.length ≤ T := (hok _ hg).size_le
      show g.xs.length ≤ _; omega
  cases o with
  | fresh =>
    simp only [ShVecs.step]
    refine Triple.have (p := CntOk c.bl (Γ.map Prod.fst)) (fun x hx => hx.1) (fun hcnt => ?_)
    have hno : c.bl.length ∉ Γ.map Prod.fst := fun h => by
      obtain ⟨B, _, hlt, _⟩ := hcnt.get h
      omega
    refine Triple.bind (sh_create hnode (ownAt_none hno)) (fun b1 => Triple.pure _ (fun x hx' => ?_))
    refine fin (Γ ++ [(c.bl.length, ⟨Vec.null, 0, [], []⟩)]) _ { S with xs := S.xs ++ [[]] } _ _ x hx' ?_ (fun j _ => ?_) (by simp [hv]) (by simp [hx]) hseen (memapp (hnull _) hok') rfl
    · exact pfst _ _
    · refine List.Perm.trans ?_ (ownAt_perm (ptail Γ _) j).symm
      rw [nown]
  | like j =>
    rcases ShInv.get hv hx j with ⟨h1, h2, h3⟩ | ⟨k, g, h1, h1', h2, h3⟩
    · simp only [ShVecs.step, h2]
      exact skip (by have := List.getElem?_eq_none_iff.1 h3; simp only [Seqs.ShStep]; rw [if_neg (by omega)]; trivial)
    · simp only [ShVecs.step, h2]
      refine Triple.bind (sh_increment (List.mem_map.2 ⟨_, h1', rfl⟩)) (fun b1 => Triple.and fun _ => Triple.pure _ (fun x hx' => ?_))
      refine fin (Γ ++ [(k, ⟨Vec.null, 0, [], []⟩)]) _ { S with xs := S.xs ++ [[]] } _ _ x hx' ?_ (fun j _ => ?_) (by simp [hv]) (by simp [hx]) hseen (memapp (hnull _) hok') ?_
      · exact pfst _ _
      · refine List.Perm.trans ?_ (ownAt_perm (ptail Γ _) j).symm
        rw [nown]
      · simp only [Seqs.ShStep]
        rw [if_pos (List.getElem?_eq_some_iff.1 h3).1]
        rfl
  | use i o =>
    rcases ShInv.get hv hx i with ⟨h1, h2, h3⟩ | ⟨k, g, h1, h1', h2, h3⟩
    · simp only [ShVecs.step, h2]
      exact skip (by simp only [Seqs.ShStep, h3])
    · simp only [ShVecs.step, h2]
      by_cases ho : o.single = true
      · rw [if_pos ho]
        have hperm := perm_eraseIdx h1
        refine Triple.pre (P := ShI sys.plat hA c.bl (k :: (Γ.eraseIdx i).map Prod.fst) (ownAt ((k, g) :: Γ.eraseIdx i))) ?_
          (fun x hx' => hx'.congr (hperm.map Prod.fst) (fun j _ => ownAt_perm hperm j))
        refine Triple.bind (sh_use (P := fun r R' => ∃ g' : Ghost, (Seqs.Step sz ⟨[g.xs], []⟩ o ⟨[g'.xs], r.2⟩ ∧ r.1 = [g'.v] ∧ g'.Ok sz (T + o.weight)) ∧
          R' = g'.own ++ ownAt (Γ.eraseIdx i) k) (by simp) (fun b s => ?_)) (fun r => ?_)
        · rw [ownAt_self]
          refine Triple.bind (vstep1 T N s g _ o ho hz hfit hN (hok _ h1')) (fun r => Triple.exists fun g' => Triple.and fun hg' => Triple.pure _ (fun x hx' => ?_))
          exact ⟨_, ⟨g', hg', rfl⟩, hx'⟩
        · refine Triple.exists fun R' => Triple.and fun ⟨g', ⟨hS, hr, hg'⟩, hR'⟩ => Triple.pure _ (fun x hx' => ?_)
          subst hR'
          refine fin (Γ.set i (k, g')) _ { xs := S.xs.set i g'.xs, seen := S.seen ++ r.2.2 } _ _ x hx' ?_ (fun j _ => ?_) (by simp [hv, hr, List.map_set]) (by simp [hx, List.map_set])
            (by simp [hseen]) (memset (q := (k, g')) hg' hok') ?_
          · exact ((perm_set (y := (k, g')) h1).map Prod.fst).symm
          · refine List.Perm.trans ?_ (ownAt_perm (perm_set h1) j).symm
            rw [ownAt_cons, upd, ownAt_cons]
            by_cases hj : j = k
            · subst hj; rw [if_pos rfl, if_pos rfl]
            · rw [if_neg hj, if_neg (Ne.symm hj), if_neg (Ne.symm hj)]
          · simp only [Seqs.ShStep, h3, ho, if_true]
            exact ⟨_, _, hS, rfl⟩
      · rw [if_neg ho]
        exact skip (by simp only [Seqs.ShStep, h3]; rw [if_neg ho]; trivial)
  | copy j =>
    rcases ShInv.get hv hx j with ⟨h1, h2, h3⟩ | ⟨k, g, h1, h1', h2, h3⟩
    · simp only [ShVecs.step, h2]
      exact skip (by simp only [Seqs.ShStep, Seqs.Step, h3])
    · simp only [ShVecs.step, h2]
      exact hcopy rfl h1' (List.mem_map.2 ⟨_, h1', rfl⟩) (by simp only [Seqs.ShStep, Seqs.Step, h3])
  | copyWith j k =>
    rcases ShInv.get hv hx j with ⟨h1, h2, h3⟩ | ⟨l, g, h1, h1', h2, h3⟩
    · simp only [ShVecs.step, h2]
      exact skip (by simp only [Seqs.ShStep, Seqs.Step, h3]; split <;> trivial)
    · rcases ShInv.get hv hx k with ⟨k1, k2, k3⟩ | ⟨l', g', k1, k1', k2, k3⟩
      · simp only [ShVecs.step, h2, k2]
        exact skip (by have := List.getElem?_eq_none_iff.1 k3; simp only [Seqs.ShStep]; rw [if_neg (by omega)]; trivial)
      · simp only [ShVecs.step, h2, k2]
        exact hcopy rfl h1' (List.mem_map.2 ⟨_, k1', rfl⟩) (by
          simp only [Seqs.ShStep, Seqs.Step, h3]; rw [if_pos (List.getElem?_eq_some_iff.1 k3).1]; trivial)
  | move j =>
    rcases ShInv.get hv hx j with ⟨h1, h2, h3⟩ | ⟨k, g, h1, h1', h2, h3⟩
    · simp only [ShVecs.step, h2]
      exact skip (by simp only [Seqs.ShStep, Seqs.Step, h3])
    · simp only [ShVecs.step, h2]
      refine Triple.bind (sh_increment (List.mem_map.2 ⟨_, h1', rfl⟩)) (fun b1 => Triple.and fun _ => Triple.pure _ (fun x hx' => ?_))
      have hp1 : (Γ.set j (k, ⟨Vec.null, 0, [], []⟩) ++ [(k, g)]).Perm ((k, g) :: (k, ⟨Vec.null, 0, [], []⟩) :: Γ.eraseIdx j) :=
        (ptail _ _).trans ((perm_set h1).cons _)
      refine fin (Γ.set j (k, ⟨Vec.null, 0, [], []⟩) ++ [(k, g)]) _ { S with xs := S.xs.set j [] ++ [g.xs] } _ _ x hx' ?_ (fun i _ => ?_) (by simp [hv, List.map_set]) (by simp [hx, List.map_set])
        hseen (memapp (hok' _ h1') (memset (hnull _) hok')) (by simp only [Seqs.ShStep, Seqs.Step, h3])
      · exact ((((perm_eraseIdx h1).map Prod.fst).cons k).trans (by exact .refl _)).trans (hp1.map Prod.fst).symm
      · refine (ownAt_perm (perm_eraseIdx h1) i).trans (List.Perm.trans ?_ (ownAt_perm hp1 i).symm)
        rw [ownAt_cons, ownAt_cons, nown]
  | copyAssign i j =>
    rcases ShInv.get hv hx i with ⟨h1, h2, h3⟩ | ⟨k, g, h1, h1', h2, h3⟩
    · simp only [ShVecs.step, h2]
      exact skip (by simp only [Seqs.ShStep, Seqs.Step, h3])
    · rcases ShInv.get hv hx j with ⟨k1, k2, k3⟩ | ⟨l, o, k1, k1', k2, k3⟩
      · simp only [ShVecs.step, h2, k2]
        exact skip (by simp only [Seqs.ShStep, Seqs.Step, h3, k3])
      · simp only [ShVecs.step, h2, k2]
        by_cases hij : i = j
        · rw [if_pos hij]
          exact skip (by simp only [Seqs.ShStep, Seqs.Step, h3, k3, hij, if_true])
        · rw [if_neg hij]
          obtain ⟨Δ, hp1, hp2⟩ := perm_set_two h1 k1 hij
          unfold ShVecs.copyAssign
          refine Triple.pre (P := ShI sys.plat hA c.bl (k :: ((l, o) :: Δ).map Prod.fst) (ownAt ((k, g) :: (l, o) :: Δ))) ?_
            (fun x hx' => hx'.congr (hp1.map Prod.fst) (fun j _ => ownAt_perm hp1 j))
          refine Triple.bind (sh_free (by simp) hz (hok _ h1') (hC _ h1')) (fun b1 => ?_)
          refine Triple.bind (sh_assign (by simp) ownAt_none) (fun b2 => ?_)
          have ho := (hok _ k1').rep
          refine Triple.bind (sh_use (P := fun (v' : Vec) R' => ∃ full', v'.Rep sz o.xs.length o.xs full' ∧ R' = v'.own full' ++ ownAt ((l, o) :: Δ) l) (by simp) (fun b s =>
            (Vec.ofRangeOf_spec hz ho (hF _ (fun _ => h0 rfl) (hL _ k1')) (hW _ (hL _ k1')) (ownAt_mem (by simp))).post
              (fun r x ⟨full', h1, h2⟩ => ⟨_, ⟨full', h1, rfl⟩, h2⟩))) (fun r => ?_)
          refine Triple.exists fun R' => Triple.and fun ⟨full', hr, hR'⟩ => Triple.pure _ (fun x hx' => ?_)
          subst hR'
          have hp3 : (Γ.set i (l, ⟨r.2, o.xs.length, o.xs, full'⟩)).Perm ((l, ⟨r.2, o.xs.length, o.xs, full'⟩) :: (l, o) :: Δ) := by
            have := hp2 (l, ⟨r.2, o.xs.length, o.xs, full'⟩) (l, o)
            have e := set_self_map id (l := Γ.set i (l, ⟨r.2, o.xs.length, o.xs, full'⟩)) (i := j) (a := (l, o)) (by rw [List.getElem?_set_ne hij]; exact k1)
            rw [List.map_id] at e
            rwa [show (l, o) = id (l, o) from rfl, e] at this
          refine fin (Γ.set i (l, ⟨r.2, o.xs.length, o.xs, full'⟩)) _ { S with xs := S.xs.set i o.xs } _ _ x hx' ?_ (fun j _ => ?_) (by simp [hv, List.map_set]) (by simp [hx, List.map_set])
            hseen (memset ⟨hr, ?_, ?_⟩ hok') (by simp only [Seqs.ShStep, Seqs.Step, h3, k3, hij, if_false])
          · exact (hp3.map Prod.fst).symm
          · refine List.Perm.trans ?_ (ownAt_perm hp3 j).symm
            rw [ownAt_cons l ⟨r.2, o.xs.length, o.xs, full'⟩, upd]
            by_cases hj : j = l
            · subst hj; rw [if_pos rfl, if_pos rfl]; rfl
            · rw [if_neg hj, if_neg (Ne.symm hj)]
          · have := (hok _ k1').size_le; show o.xs.length ≤ 2 * (T + _); simp only [] at this; omega
          · have := (hok _ k1').size_le; show o.xs.length ≤ T + _; simp only [] at this; omega
  | moveAssign i j =>
    rcases ShInv.get hv hx i with ⟨h1, h2, h3⟩ | ⟨k, g, h1, h1', h2, h3⟩
    · simp only [ShVecs.step, h2]
      exact skip (by simp only [Seqs.ShStep, Seqs.Step, h3]; split <;> trivial)
    · rcases ShInv.get hv hx j with ⟨k1, k2, k3⟩ | ⟨l, o, k1, k1', k2, k3⟩
      · simp only [ShVecs.step, h2, k2]
        exact skip (by simp only [Seqs.ShStep, Seqs.Step, h3, k3]; split <;> trivial)
      · simp only [ShVecs.step, h2, k2]
        by_cases hij : i = j
        · rw [if_pos hij]
          exact skip (by simp only [Seqs.ShStep, hij, if_true])
        · rw [if_neg hij]
          obtain ⟨Δ, hp1, hp2⟩ := perm_set_two h1 k1 hij
          unfold ShVecs.moveAssign
          refine Triple.pre (P := ShI sys.plat hA c.bl (k :: ((l, o) :: Δ).map Prod.fst) (ownAt ((k, g) :: (l, o) :: Δ))) ?_
            (fun x hx' => hx'.congr (hp1.map Prod.fst) (fun j _ => ownAt_perm hp1 j))
          refine Triple.bind (sh_free (by simp) hz (hok _ h1') (hC _ h1')) (fun b1 => ?_)
          refine Triple.bind (sh_assign (by simp) ownAt_none) (fun b2 => Triple.pure _ (fun x hx' => ?_))
          have hp3 := hp2 (l, o) (l, ⟨Vec.null, 0, [], []⟩)
          refine fin ((Γ.set i (l, o)).set j (l, ⟨Vec.null, 0, [], []⟩)) _ { S with xs := (S.xs.set i o.xs).set j [] } _ _ x hx' ?_ (fun j _ => ?_)
            (by simp [hv, List.map_set]) (by simp [hx, List.map_set]) hseen (memset (hnull _) (memset (hok' _ k1') hok')) (by simp only [Seqs.ShStep, Seqs.Step, h3, k3, hij, if_false])
          · exact (hp3.map Prod.fst).symm
          · refine List.Perm.trans ?_ (ownAt_perm hp3 j).symm
            rw [ownAt_cons, ownAt_cons, nown]
  | destroy i =>
    rcases ShInv.get hv hx i with ⟨h1, h2, h3⟩ | ⟨k, g, h1, h1', h2, h3⟩
    · simp only [ShVecs.step, h2]
      exact skip (by
        simp only [Seqs.ShStep, Seqs.Step]
        rw [List.eraseIdx_of_length_le (List.getElem?_eq_none_iff.1 h3)])
    · simp only [ShVecs.step, h2]
      have hperm := perm_eraseIdx h1
      refine Triple.pre (P := ShI sys.plat hA c.bl (k :: (Γ.eraseIdx i).map Prod.fst) (ownAt ((k, g) :: Γ.eraseIdx i))) ?_
        (fun x hx' => hx'.congr (hperm.map Prod.fst) (fun j _ => ownAt_perm hperm j))
      refine Triple.bind (sh_free (by simp) hz (hok _ h1') (hC _ h1')) (fun b1 => ?_)
      refine Triple.bind (sh_decrement (.refl _) ownAt_none) (fun b2 => Triple.and fun _ => Triple.pure _ (fun x hx' => ?_))
      exact fin (Γ.eraseIdx i) _ { S with xs := S.xs.eraseIdx i } _ _ x hx' (.refl _) (fun _ _ => .refl _) (by rw [← Linear.map_eraseIdx', ← hv])
        (by rw [← Linear.map_eraseIdx', ← hx]) hseen (fun p hp => hok' p (List.mem_of_mem_eraseIdx hp)) rfl

theorem shrun (sys : Sys) (hnode : MallocFits sys.plat (Cascading.nodeSize A)) (N : Nat) (hz : 0 < sz)
    (hfit : ∀ n, 0 < n → n ≤ 2 * N → sz * n < W64 ∧ fA (sz * n)) (ops : List ShOp) (h0 : (∃ o ∈ ops, o.mayBeEmpty = true) → fA 0) (T : Nat) (c : ShVecs A) (S : Seqs)
    (hN : T + shWeights ops ≤ N) :
    Triple (ShInv sys.plat hA sz T c S) (c.run sys sz ops) (fun c' x => ∃ S', Seqs.ShRun sz S ops S' ∧ ShInv sys.plat hA sz (T + shWeights ops) c' S' x) := by
  induction ops generalizing T c S with
  | nil => exact Triple.pure _ (fun x hx => ⟨S, .nil _, hx⟩)
  | cons o os ih =>
    simp only [shWeights] at hN ⊢
    refine Triple.bind (shstep sys hnode T N c S o hz hfit (fun h => h0 ⟨o, by simp, h⟩) (by omega)) (fun c' => ?_)
    refine Triple.exists fun S' => Triple.and fun hS => ?_
    refine (ih (fun ⟨o', h1, h2⟩ => h0 ⟨o', by simp [h1], h2⟩) (T + o.weight) c' S' (by omega)).post (fun c'' x ⟨S'', h1, h2⟩ => ⟨S'', .cons hS h1, ?_⟩)
    rwa [← Nat.add_assoc]

theorem shStar_none {plat : Plat} {f : Nat → List (Nat × List UInt8)} {j : Nat} {bl : ShBlocks A} (h : ∀ (k : Nat) (B : ShBlock A), bl[k]? ≠ some (some B)) :
    shStar plat hA f j bl = emp := by
  induction bl generalizing j with
  | nil => rfl
  | cons o bl ih =>
    cases o with
    | none => exact ih (j := j + 1) (fun k B hk => h (k + 1) B (by rw [List.getElem?_cons_succ]; exact hk))
    | some B => exact absurd rfl (h 0 B)

/-- what the blocks say about memory -/
theorem shStar_heap {plat : Plat} {f : Nat → List (Nat × List UInt8)} {bl : ShBlocks A} {k : Nat} {B : ShBlock A} (hB : bl[k]? = some (some B)) {h : Heap}
    (hp : shStar plat hA f 0 bl h) {p : Nat} {bs : List UInt8} (hm : (p, bs) ∈ f k) (i : Nat) (hi : i < bs.length) : h.b (p + i) = some bs[i] := by
  rw [shStar_take hB, Nat.zero_add] at hp
  obtain ⟨h1, h2, hd, rfl, ⟨_, h3, h4, hd', rfl, h5, _⟩, _⟩ := hp
  exact heap_add_left (heap_add_left (h5.heap hm i hi))
end

/-- the elements of a vector in its memory -/
theorem Vec.Rep.elem_bytes {sz cap : Nat} {v : Vec} {xs : List (List UInt8)} {full : List UInt8} (hg : v.Rep sz cap xs full) {m : Nat → Option UInt8}
    (hm : v.beg ≠ 0 → ∀ (i : Nat) (hi : i < full.length), m (v.beg + i) = some full[i]) (k : Nat) (e : List UInt8) (hk : xs[k]? = some e) :
    e.length = sz ∧ ∀ j, j < sz → m (v.beg + k * sz + j) = e[j]? := by
  obtain ⟨hk1, rfl⟩ := List.getElem?_eq_some_iff.1 hk
  refine ⟨hg.elems _ (List.getElem_mem hk1), fun j hj => ?_⟩
  have hb0 := hg.pos_of_index hk1
  have hlt : k * sz + sz ≤ xs.length * sz := by
    have := Nat.mul_le_mul_right sz hk1
    rw [Nat.succ_mul] at this; exact this
  have hmul := hg.mul_le
  have hin : k * sz + j < full.length := by rw [hg.len]; omega
  have e2 : full[k * sz + j]? = xs[k][j]? := by
    have hsl := hg.slice k 1 hk1
    rw [List.drop_eq_getElem_cons hk1, List.take_succ_cons, List.take_zero, List.flatten_singleton, Nat.one_mul] at hsl
    rw [← hsl, List.getElem?_take_of_lt hj, List.getElem?_drop]
  rw [← e2, List.getElem?_eq_getElem hin, ← hm hb0, Nat.add_assoc]

/-- The storage the program may ask for fits in the address space and in the allocator's arithmetic; a block with an allocator can be
allocated; and no empty allocation if the composition cannot serve it (C58). -/
def ShSane (t : AllocTy) (sz : Nat) (ops : List ShOp) : Prop :=
  sz * (2 * shWeights ops) + t.margin < 2 ^ 64 ∧ t.size + 32 < 2 ^ 64 ∧ ((∃ o ∈ ops, o.mayBeEmpty = true) → t.noRouting = true)

/-- **C71.** A program makes allocators behind reference counted handles (`shared`), as many as it likes, and vectors that hold such handles;
vectors are constructed, copied (with the same or another allocator), moved, assigned across allocators and destroyed, in any order. It sees what
the same program sees with mathematical sequences. An allocator exists exactly as long as some vector has a handle of it, and its counter
is the number of these vectors. Memory that was there before keeps its contents, and when the last vector is destroyed, memory is exactly as it
was at the beginning. No undefined behaviour; in particular, no vector ever gives memory to an allocator that it does not come from, or
that has been deleted. -/
theorem C71_vectors_over_shared (sys : Sys) (t : AllocTy) (hwf : t.WF) (w : World) (sz : Nat) (hz : 0 < sz) (ops : List ShOp) (hops : ShSane t sz ops) :
    match ShVecs.run sys sz (A := t.denote sys) ⟨[], [], []⟩ ops w with
    | .ok c w' =>
        (∃ S, Seqs.ShRun sz ⟨[], []⟩ ops S ∧ c.seen = S.seen ∧ c.vs.length = S.xs.length ∧
          ∀ (i k : Nat) (v : Vec) (xs : List (List UInt8)), c.vs[i]? = some (k, v) → S.xs[i]? = some xs → v.size sz = xs.length ∧
            ∀ (n : Nat) (e : List UInt8), xs[n]? = some e → e.length = sz ∧ ∀ j, j < sz → w'.heap.b (v.beg + n * sz + j) = e[j]?) ∧
        (∀ k, (∃ B, c.bl[k]? = some (some B)) ↔ k ∈ c.vs.map Prod.fst) ∧
        (∀ k B, c.bl[k]? = some (some B) → B.count = (c.vs.map Prod.fst).count k) ∧
        (∀ x u, w.heap.b x = some u → w'.heap.b x = some u) ∧
        (c.vs = [] → w'.heap = w.heap)
    | .oom w' => w'.failed = true
    | .ub => False := by
  have h1 := hops.1
  have hnode : MallocFits sys.plat (Cascading.nodeSize (t.denote sys)) := fun _ => by
    show (t.denote sys).objSize + 16 + 16 < W64
    rw [t.objSize_eq]; exact hops.2.1
  have := shrun (hA := t.sound sys hwf) sys hnode (shWeights ops) hz (fun n hn hle => ?_) ops (fun he => t.fits_zero sys.plat hwf (hops.2.2 he) 0 (by omega)) 0
    ⟨[], [], []⟩ ⟨[], []⟩ (by omega) w Heap.empty w.heap (Heap.empty_disj _) (by simp)
    ⟨[], rfl, rfl, rfl, (fun p hp => by cases hp), (fun k => by show (0 : Nat) = 0; rfl), rfl⟩
  · cases hr : ShVecs.run sys sz (A := t.denote sys) ⟨[], [], []⟩ ops w with
    | oom w' => rw [hr] at this; exact this
    | ub => rw [hr] at this; exact this
    | ok c w' =>
      rw [hr] at this
      obtain ⟨⟨h', hd', he', S, hrun, Γ, hv, hx, hseen, hok, hcnt, hst⟩, _⟩ := this
      have hfst : c.vs.map Prod.fst = Γ.map Prod.fst := by rw [hv, List.map_map]; rfl
      refine ⟨⟨S, hrun, hseen, by rw [hv, hx]; simp, fun i k v xs hi hi' => ?_⟩, fun k => ?_, fun k B hB => ?_, fun x u hu => ?_, fun hnil => ?_⟩
      · rcases ShInv.get hv hx i with ⟨_, h2, _⟩ | ⟨k', g, h1, h1', h2, h3⟩
        · rw [h2] at hi; cases hi
        · rw [h2] at hi; rw [h3] at hi'
          obtain ⟨rfl, rfl⟩ := Prod.mk.inj (Option.some.inj hi)
          obtain rfl := Option.some.inj hi'
          have hg := (hok _ h1').rep
          refine ⟨hg.size_eq hz, hg.elem_bytes (m := w'.heap.b) (fun hb0 i hi => ?_)⟩
          obtain ⟨B, hB, _, _⟩ := hcnt.get (List.mem_map.2 ⟨_, h1', rfl⟩)
          rw [he']
          exact heap_add_left (shStar_heap hB hst (ownAt_mem h1' _ (by unfold Ghost.own; rw [Vec.own_pos hb0]; simp)) i hi)
      · rw [hfst]
        exact ⟨fun ⟨B, hB⟩ => hcnt.mem hB, fun hk => (hcnt.get hk).imp fun B h => h.1⟩
      · rw [hfst]
        have := hcnt k
        rw [hB] at this
        exact this.1
      · rw [he']; exact heap_add_right hd' hu
      · have hΓ : Γ = [] := by rw [hv] at hnil; exact List.map_eq_nil_iff.1 hnil
        subst hΓ
        rw [shStar_none (fun k B hk => by have := hcnt.mem hk; cases this)] at hst
        obtain rfl : h' = Heap.empty := hst
        rw [he']; simp
  · have hm : sz * n ≤ sz * (2 * shWeights ops) := Nat.mul_le_mul_left _ hle
    have hp : 0 < sz * n := Nat.mul_pos hz hn
    exact ⟨by omega, t.fits_of_margin sys.plat hwf _ hp (by omega)⟩

example : ShSane demoTy 8 [.fresh, .use 0 (.push 0 [1, 2, 3, 4, 5, 6, 7, 8]), .fresh, .like 0, .move 0, .moveAssign 1 3, .destroy 0, .use 2 (.reserve 0 40)] := by
  refine ⟨by decide, by decide, ?_⟩
  rintro ⟨o, ho, h⟩
  simp at ho
  rcases ho with rfl | rfl | rfl | rfl | rfl | rfl | rfl | rfl <;> cases h

/-- Two allocators; a vector of the second is assigned a vector of the first, whose other vectors are then destroyed. The second block is
deleted at the assignment, the first one lives on in the copy, and at the end nothing is left. -/
example : (ShVecs.run (demoSys .manual) 2 (A := (AllocTy.linear 64).denote (demoSys .manual)) ⟨[], [], []⟩
      [.fresh, .use 0 (.pushRange 0 [[1, 2], [3, 4]]), .fresh, .use 1 (.push 0 [9, 9]), .copyAssign 1 0, .destroy 0, .use 0 (.read 0 1)] (demoWorld 0)).test
    (fun c _ => c.vs.map Prod.fst == [0] && c.bl.map (fun o => o.map (·.count)) == [some 1, none] && c.seen == [[1, 2, 3, 4], [9, 9], [3, 4]]) = true := by
  decide +kernel

end KTL
