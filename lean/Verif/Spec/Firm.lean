import Verif.Spec.Says
import Verif.Props.Reports
import Verif.Props.Array

/- Containers over `overflow`: proof machinery for C80. A container stops the program when its allocator refuses (`grab`), so that a
program with containers runs the same over the allocator `firm A`, which does that itself. Over `firm (overflow A)` the counter of
`overflow` is the sum of the sizes of the live blocks. -/
namespace KTL

/-- The allocator `A`, stopping the program where `A` answers null to a nonempty request; without `construct` and `destroy`, which
`trivial_vector` and `trivial_array` do not use. Proof helper, not code. -/
def firm (A : Allocator) : Allocator where
  St := A.St
  objSize := A.objSize
  init := A.init
  alloc s n := do
    let r ← A.alloc s n
    if r.1 = 0 ∧ n ≠ 0 then M.oom else pure r
  dealloc := A.dealloc
  owns := A.owns
  maxSize := A.maxSize
  construct := none
  destroy := none
  fini := A.fini

/-- The same request from a container. -/
theorem firm_grab (sz : Nat) (A : Allocator) (s : A.St) (n : Nat) : grab sz (firm A) s n = grab sz A s n := by
  show (do
    let r ← (do
      let r ← A.alloc s (mulW sz n)
      if r.1 = 0 ∧ mulW sz n ≠ 0 then M.oom else pure r)
    if r.1 = 0 ∧ n ≠ 0 then M.oom else pure r) = (do
    let r ← A.alloc s (mulW sz n)
    if r.1 = 0 ∧ n ≠ 0 then M.oom else pure r)
  rw [bind_assoc]
  congr 1
  funext r
  by_cases h : r.1 = 0 ∧ mulW sz n ≠ 0
  · have hn : n ≠ 0 := by
      rintro rfl
      exact h.2 (by unfold mulW; rw [Nat.mul_zero])
    rw [if_pos h, if_pos ⟨h.1, hn⟩]; rfl
  · rw [if_neg h, pure_bind]

theorem triple_post {α : Type} {P : HProp} {Q : α → HProp} {c : M α} {R : α → Prop} (h : Triple P c Q) (hp : Post c R) :
    Triple P c (fun a x => R a ∧ Q a x) := by
  intro w s hf hd he hP
  have := h w s hf hd he hP
  cases hc : c w with
  | ub => rw [hc] at this; exact this
  | oom w' => rw [hc] at this; exact this
  | ok a w' =>
    rw [hc] at this
    obtain ⟨⟨h', h1, h2, h3⟩, h4⟩ := this
    exact ⟨⟨h', h1, h2, hp w a w' hc, h3⟩, h4⟩

/-- the sum of the sizes. Specification, not code. -/
def sizes (L : List (Nat × Nat)) : Nat := (L.map Prod.snd).sum

theorem sizes_perm {L L' : List (Nat × Nat)} (h : L.Perm L') : sizes L = sizes L' := (h.map _).sum_nat

open Overflow in
theorem overflow_alloc_post (A : Allocator) (s : Overflow.St A.St) (n : Nat) : Post ((overflow A).alloc s n)
    (fun r => r.2.allocs = wrap64 (s.allocs + n) ∧ r.2.constructs = s.constructs) := by
  simp only [overflow]
  refine Post.bind' (fun r => ?_)
  split
  · exact Post.pure ⟨rfl, rfl⟩
  · exact Post.bind' (fun _ => Post.bind' (fun _ => Post.pure ⟨rfl, rfl⟩))

open Overflow in
theorem overflow_dealloc_post (A : Allocator) (s : Overflow.St A.St) (p n : Nat) : Post ((overflow A).dealloc s p n)
    (fun r => r.allocs = wrap64 (s.allocs - n) ∧ r.constructs = s.constructs) := by
  simp only [overflow]
  split
  · exact Post.bind' (fun _ => Post.bind' (fun _ => Post.bind' (fun _ => Post.bind' (fun _ => Post.pure ⟨rfl, rfl⟩))))
  · exact Post.pure ⟨rfl, rfl⟩

/-- `overflow` counts the live bytes if no request is refused. Proof helper, not code. -/
def firm_sound {A : Allocator} {f : Nat → Prop} (hO : Sound (overflow A) f) : Sound (firm (overflow A)) f where
  Inv b s L := fun h => (s.allocs = Overflow.wrap64 (sizes L) ∧ s.constructs = 0) ∧ hO.Inv b s L h
  objAlign := hO.objAlign
  perm := fun hp ⟨⟨h1, h2⟩, h3⟩ => ⟨⟨by rw [← sizes_perm hp]; exact h1, h2⟩, hO.perm hp h3⟩
  init_spec := by
    intro b h1 h2 h3
    refine triple_post (hO.init_spec b h1 h2 h3) ?_
    simp only [firm, overflow]
    exact Post.bind' (fun _ => Post.pure ⟨rfl, rfl⟩)
  alloc_spec := by
    intro b s L n hf hn
    refine Triple.and fun ⟨h1, h2⟩ => ?_
    refine Triple.bind (triple_post (hO.alloc_spec b s L n hf hn) (overflow_alloc_post A s n)) (fun r => ?_)
    refine Triple.and fun ⟨e1, e2⟩ => ?_
    rw [h1, wrap64_add] at e1
    split
    · exact Triple.oom
    · rename_i hc
      refine Triple.pure _ (fun x hx => ?_)
      rcases hx with ⟨h0, hI⟩ | ⟨hg, hI⟩
      · refine .inl ⟨h0, ⟨?_, e2.trans h2⟩, hI⟩
        have : n = 0 := Classical.byContradiction fun h => hc ⟨h0, h⟩
        rw [e1, this]; simp
      · refine .inr ⟨hg, ?_⟩
        rw [star_and]
        refine ⟨⟨?_, e2.trans h2⟩, hI⟩
        rw [e1]
        congr 1
        simp only [sizes, List.map_cons, List.sum_cons]
        push_cast; omega
  dealloc_local := by
    intro b s p bs R k hk
    rw [star_and]
    refine apart_and fun ⟨h1, h2⟩ => ?_
    refine (triple_post (hO.dealloc_local b s p bs R k hk) (overflow_dealloc_post A s p bs.length)).post (fun s' x hx => ?_)
    obtain ⟨⟨e1, e2⟩, hI⟩ := hx
    refine ⟨⟨?_, e2.trans h2⟩, hI⟩
    rw [e1, h1, wrap64_sub]
    congr 1
    simp only [sizes, List.map_cons, List.sum_cons]
    push_cast; omega
  live_good := fun ⟨_, h⟩ hm => hO.live_good h hm
  live_max := fun f hf {b s L h p n} ⟨_, hi⟩ hm => hO.live_max f hf hi hm
  owns_sound := fun f hf {b s L h x} ⟨_, hi⟩ => hO.owns_sound f hf hi
  owns_complete := fun f hf {b s L h x} ⟨_, hi⟩ => hO.owns_complete f hf hi
  construct_spec := nofun
  destroy_spec := nofun
  fini_spec := by
    intro b s
    exact Triple.and fun _ => hO.fini_spec b s

/-! ### Vectors run the same -/

/-- Proof helper, not code. -/
def Vecs.soft {A : Allocator} (c : Vecs (firm A)) : Vecs A := ⟨c.st, c.vs, c.seen⟩

section
variable (A : Allocator) (sz : Nat) (s : A.St) (v o : Vec) (n : Nat) (x : Arg)

theorem Vec.firm_ofSize : Vec.ofSize sz (firm A) s n = Vec.ofSize sz A s n := by
  unfold Vec.ofSize; exact congrArg (· >>= _) (firm_grab sz A s n)

theorem Vec.firm_ofFill : Vec.ofFill sz (firm A) s n x = Vec.ofFill sz A s n x := by
  unfold Vec.ofFill; exact congrArg (· >>= _) (Vec.firm_ofSize A sz s n)

theorem Vec.firm_ofRange : Vec.ofRange sz (firm A) s n x = Vec.ofRange sz A s n x := by
  unfold Vec.ofRange; exact congrArg (· >>= _) (Vec.firm_ofSize A sz s n)

theorem Vec.firm_copy : Vec.copy sz (firm A) s o = Vec.copy sz A s o := by
  unfold Vec.copy; exact congrArg (· >>= _) (Vec.firm_ofSize A sz s _)

theorem Vec.firm_destroy : Vec.destroy sz (firm A) s v = Vec.destroy sz A s v := rfl

theorem Vec.firm_setSize : Vec.setSize sz (firm A) s v n = Vec.setSize sz A s v n := by
  unfold Vec.setSize; exact congrArg (· >>= _) (firm_grab sz A s n)

theorem Vec.firm_expand : Vec.expand sz (firm A) s v n = Vec.expand sz A s v n := Vec.firm_setSize A sz s v _

theorem Vec.firm_resize : Vec.resize sz (firm A) s v n = Vec.resize sz A s v n := by
  unfold Vec.resize
  have := Vec.firm_expand A sz s v (n - v.capacity sz)
  split
  · exact congrArg (· >>= _) this
  · rfl

theorem Vec.firm_reserve : Vec.reserve sz (firm A) s v n = Vec.reserve sz A s v n := by
  unfold Vec.reserve
  split
  · exact Vec.firm_setSize A sz s v n
  · rfl

theorem Vec.firm_pushBack : Vec.pushBack sz (firm A) s v x = Vec.pushBack sz A s v x := by
  unfold Vec.pushBack
  split
  · exact congrArg (· >>= _) (Vec.firm_expand A sz s v 1)
  · rfl

theorem Vec.firm_pushRange : Vec.pushRange sz (firm A) s v n x = Vec.pushRange sz A s v n x := by
  unfold Vec.pushRange
  split
  · exact congrArg (· >>= _) (Vec.firm_expand A sz s v n)
  · rfl

end

/-- Proof helper, not code. -/
def soften {A : Allocator} (c : M (Vecs (firm A))) : M (Vecs A) := c >>= fun c => pure c.soft

theorem soften_bind {α : Type} {A : Allocator} (c d : M α) (e : c = d) (f : α → M (Vecs (firm A))) (g : α → M (Vecs A)) (h : ∀ a, soften (f a) = g a) :
    soften (c >>= f) = (d >>= g) := by
  subst e
  unfold soften
  rw [bind_assoc]
  exact congrArg _ (funext h)

theorem firm_step (sz : Nat) {A : Allocator} (c : Vecs (firm A)) (op : VOp) : soften (c.step sz op) = c.soft.step sz op := by
  have hvs : c.soft.vs = c.vs := rfl
  have hst : c.soft.st = c.st := rfl
  cases op with
  | new => rfl
  | newSize n => exact soften_bind _ _ (Vec.firm_ofSize A sz c.st n) _ _ fun _ => rfl
  | newFill n x =>
    simp only [Vecs.step]
    split
    · exact soften_bind _ _ (Vec.firm_ofFill A sz c.st n (.val x)) _ _ fun _ => rfl
    · rfl
  | newRange xs =>
    simp only [Vecs.step]
    split
    · exact soften_bind _ _ (Vec.firm_ofRange A sz c.st _ _) _ _ fun _ => rfl
    · rfl
  | copy j =>
    simp only [Vecs.step, hvs]
    cases c.vs[j]? with
    | none => rfl
    | some o => exact soften_bind _ _ (Vec.firm_copy A sz c.st o) _ _ fun _ => rfl
  | move j =>
    simp only [Vecs.step, hvs]
    cases c.vs[j]? <;> rfl
  | copyAssign i j =>
    simp only [Vecs.step]
    split
    · rfl
    · simp only [Vecs.copyAssign, hvs]
      cases c.vs[i]? with
      | none => rfl
      | some v =>
        cases c.vs[j]? with
        | none => rfl
        | some o =>
          exact soften_bind _ _ (Vec.firm_destroy A sz c.st v) _ _ fun s => soften_bind _ _ (Vec.firm_ofSize A sz s _) _ _ fun r =>
            soften_bind _ _ rfl _ _ fun _ => rfl
  | moveAssign i j =>
    simp only [Vecs.step, Vecs.moveAssign, hvs]
    cases c.vs[i]? with
    | none => rfl
    | some v =>
      cases c.vs[j]? with
      | none => rfl
      | some o => exact soften_bind _ _ (Vec.firm_destroy A sz c.st v) _ _ fun s => rfl
  | destroy i =>
    simp only [Vecs.step, hvs]
    cases c.vs[i]? with
    | none => rfl
    | some v => exact soften_bind _ _ (Vec.firm_destroy A sz c.st v) _ _ fun s => rfl
  | push i x =>
    simp only [Vecs.step, hvs]
    cases c.vs[i]? with
    | none => rfl
    | some v =>
      simp only
      split
      · exact soften_bind _ _ (Vec.firm_pushBack A sz c.st v _) _ _ fun r => soften_bind _ _ rfl _ _ fun _ => rfl
      · rfl
  | pushRange i xs =>
    simp only [Vecs.step, hvs]
    cases c.vs[i]? with
    | none => rfl
    | some v =>
      simp only
      split
      · exact soften_bind _ _ (Vec.firm_pushRange A sz c.st v _ _) _ _ fun r => soften_bind _ _ rfl _ _ fun _ => rfl
      · rfl
  | pushFrom i j a n =>
    simp only [Vecs.step, hvs]
    cases c.vs[i]? with
    | none => rfl
    | some v =>
      cases c.vs[j]? with
      | none => rfl
      | some o =>
        simp only
        split
        · exact soften_bind _ _ (Vec.firm_pushRange A sz c.st v _ _) _ _ fun r => soften_bind _ _ rfl _ _ fun _ => rfl
        · rfl
  | erase i k =>
    simp only [Vecs.step, hvs]
    cases c.vs[i]? with
    | none => rfl
    | some v =>
      simp only
      split
      · exact soften_bind _ _ rfl _ _ fun r => soften_bind _ _ rfl _ _ fun _ => rfl
      · rfl
  | eraseRange i a n =>
    simp only [Vecs.step, hvs]
    cases c.vs[i]? with
    | none => rfl
    | some v =>
      simp only
      split
      · exact soften_bind _ _ rfl _ _ fun r => soften_bind _ _ rfl _ _ fun _ => rfl
      · rfl
  | resize i n =>
    simp only [Vecs.step, hvs]
    cases c.vs[i]? with
    | none => rfl
    | some v => exact soften_bind _ _ (Vec.firm_resize A sz c.st v n) _ _ fun r => rfl
  | reserve i n =>
    simp only [Vecs.step, hvs]
    cases c.vs[i]? with
    | none => rfl
    | some v => exact soften_bind _ _ (Vec.firm_reserve A sz c.st v n) _ _ fun r => rfl
  | clear i =>
    simp only [Vecs.step, hvs]
    cases c.vs[i]? <;> rfl
  | write i k x =>
    simp only [Vecs.step, hvs]
    cases c.vs[i]? with
    | none => rfl
    | some v =>
      simp only
      split
      · exact soften_bind _ _ rfl _ _ fun r => rfl
      · rfl
  | read i k =>
    simp only [Vecs.step, hvs]
    cases c.vs[i]? with
    | none => rfl
    | some v =>
      simp only
      split
      · exact soften_bind _ _ rfl _ _ fun r => rfl
      · rfl

theorem firm_run (sz : Nat) {A : Allocator} (c : Vecs (firm A)) (ops : List VOp) : soften (c.run sz ops) = c.soft.run sz ops := by
  induction ops generalizing c with
  | nil => rfl
  | cons o os ih =>
    show soften (c.step sz o >>= fun c' => c'.run sz os) = (c.soft.step sz o >>= fun c' => c'.run sz os)
    rw [← firm_step]
    unfold soften
    rw [bind_assoc, bind_assoc]
    congr 1
    funext c'
    exact ih c'

/-- A program with vectors runs the same over `firm A`. -/
theorem firm_vplay (sz : Nat) (A : Allocator) (b : Nat) (ops : List VOp) : soften (vplay sz (firm A) b ops) = vplay sz A b ops :=
  soften_bind _ _ rfl _ _ fun s => firm_run sz (A := A) ⟨s, [], []⟩ ops

theorem firm_destroyAll (sz : Nat) (A : Allocator) (s : A.St) (vs : List Vec) : Vecs.destroyAll sz (A := firm A) s vs = Vecs.destroyAll sz (A := A) s vs := by
  induction vs generalizing s with
  | nil => rfl
  | cons v vs ih => exact congrArg (Vec.destroy sz A s v >>= ·) (funext fun s' => ih s')

/-! ### Arrays run the same -/

/-- Proof helper, not code. -/
def Arrs.soft {A : Allocator} (c : Arrs (firm A)) : Arrs A := ⟨c.st, c.vs, c.seen⟩

section
variable (A : Allocator) (sz : Nat) (s : A.St) (v o : Arr) (n : Nat) (x : Arg)

theorem Arr.firm_ofSize : Arr.ofSize sz (firm A) s n = Arr.ofSize sz A s n := by
  unfold Arr.ofSize; exact congrArg (· >>= _) (firm_grab sz A s n)

theorem Arr.firm_ofFill : Arr.ofFill sz (firm A) s n x = Arr.ofFill sz A s n x := by
  unfold Arr.ofFill; exact congrArg (· >>= _) (Arr.firm_ofSize A sz s n)

theorem Arr.firm_ofRange : Arr.ofRange sz (firm A) s n x = Arr.ofRange sz A s n x := by
  unfold Arr.ofRange; exact congrArg (· >>= _) (Arr.firm_ofSize A sz s n)

theorem Arr.firm_copy : Arr.copy sz (firm A) s o = Arr.copy sz A s o := by
  unfold Arr.copy; exact congrArg (· >>= _) (Arr.firm_ofSize A sz s _)

theorem Arr.firm_destroy : Arr.destroy sz (firm A) s v = Arr.destroy sz A s v := rfl

theorem Arr.firm_resize : Arr.resize sz (firm A) s v n = Arr.resize sz A s v n := by
  unfold Arr.resize
  split
  · exact congrArg (· >>= _) (firm_grab sz A s n)
  · rfl

theorem Arr.firm_assignRoom : Arr.assignRoom sz (firm A) s v n = Arr.assignRoom sz A s v n := by
  unfold Arr.assignRoom
  split
  · exact congrArg (· >>= _) (firm_grab sz A s n)
  · rfl

theorem Arr.firm_assign : Arr.assign sz (firm A) s v n x = Arr.assign sz A s v n x := by
  unfold Arr.assign; exact congrArg (· >>= _) (Arr.firm_assignRoom A sz s v n)

end

/-- Proof helper, not code. -/
def asoften {A : Allocator} (c : M (Arrs (firm A))) : M (Arrs A) := c >>= fun c => pure c.soft

theorem asoften_bind {α : Type} {A : Allocator} (c d : M α) (e : c = d) (f : α → M (Arrs (firm A))) (g : α → M (Arrs A)) (h : ∀ a, asoften (f a) = g a) :
    asoften (c >>= f) = (d >>= g) := by
  subst e
  unfold asoften
  rw [bind_assoc]
  exact congrArg _ (funext h)

theorem firm_astep (sz : Nat) {A : Allocator} (c : Arrs (firm A)) (op : ArrOp) : asoften (c.step sz op) = c.soft.step sz op := by
  have hvs : c.soft.vs = c.vs := rfl
  have hst : c.soft.st = c.st := rfl
  cases op with
  | new => rfl
  | newSize n => exact asoften_bind _ _ (Arr.firm_ofSize A sz c.st n) _ _ fun _ => rfl
  | newFill n x =>
    simp only [Arrs.step]
    split
    · exact asoften_bind _ _ (Arr.firm_ofFill A sz c.st n (.val x)) _ _ fun _ => rfl
    · rfl
  | newRange xs =>
    simp only [Arrs.step]
    split
    · exact asoften_bind _ _ (Arr.firm_ofRange A sz c.st _ _) _ _ fun _ => rfl
    · rfl
  | copy j =>
    simp only [Arrs.step, hvs]
    cases c.vs[j]? with
    | none => rfl
    | some o => exact asoften_bind _ _ (Arr.firm_copy A sz c.st o) _ _ fun _ => rfl
  | move j =>
    simp only [Arrs.step, hvs]
    cases c.vs[j]? <;> rfl
  | copyAssign i j =>
    simp only [Arrs.step]
    split
    · rfl
    · simp only [Arrs.copyAssign, hvs]
      cases c.vs[i]? with
      | none => rfl
      | some v =>
        cases c.vs[j]? with
        | none => rfl
        | some o =>
          exact asoften_bind _ _ (Arr.firm_destroy A sz c.st v) _ _ fun s => asoften_bind _ _ (Arr.firm_ofSize A sz s _) _ _ fun r =>
            asoften_bind _ _ rfl _ _ fun _ => rfl
  | moveAssign i j =>
    simp only [Arrs.step, Arrs.moveAssign, hvs]
    cases c.vs[i]? with
    | none => rfl
    | some v =>
      cases c.vs[j]? with
      | none => rfl
      | some o => exact asoften_bind _ _ (Arr.firm_destroy A sz c.st v) _ _ fun s => rfl
  | destroy i =>
    simp only [Arrs.step, hvs]
    cases c.vs[i]? with
    | none => rfl
    | some v => exact asoften_bind _ _ (Arr.firm_destroy A sz c.st v) _ _ fun s => rfl
  | resize i n =>
    simp only [Arrs.step, hvs]
    cases c.vs[i]? with
    | none => rfl
    | some v => exact asoften_bind _ _ (Arr.firm_resize A sz c.st v n) _ _ fun r => rfl
  | assign i xs =>
    simp only [Arrs.step, hvs]
    cases c.vs[i]? with
    | none => rfl
    | some v =>
      simp only
      split
      · exact asoften_bind _ _ (Arr.firm_assign A sz c.st v _ _) _ _ fun r => rfl
      · rfl
  | assignFrom i j a n =>
    simp only [Arrs.step, hvs]
    cases c.vs[i]? with
    | none => rfl
    | some v =>
      cases c.vs[j]? with
      | none => rfl
      | some o =>
        simp only
        split
        · exact asoften_bind _ _ (Arr.firm_assign A sz c.st v _ _) _ _ fun r => rfl
        · rfl
  | write i k x =>
    simp only [Arrs.step, hvs]
    cases c.vs[i]? with
    | none => rfl
    | some v =>
      simp only
      split
      · exact asoften_bind _ _ rfl _ _ fun r => rfl
      · rfl
  | read i k =>
    simp only [Arrs.step, hvs]
    cases c.vs[i]? with
    | none => rfl
    | some v =>
      simp only
      split
      · exact asoften_bind _ _ rfl _ _ fun r => rfl
      · rfl

theorem firm_arun (sz : Nat) {A : Allocator} (c : Arrs (firm A)) (ops : List ArrOp) : asoften (c.run sz ops) = c.soft.run sz ops := by
  induction ops generalizing c with
  | nil => rfl
  | cons o os ih =>
    show asoften (c.step sz o >>= fun c' => c'.run sz os) = (c.soft.step sz o >>= fun c' => c'.run sz os)
    rw [← firm_astep]
    unfold asoften
    rw [bind_assoc, bind_assoc]
    congr 1
    funext c'
    exact ih c'

/-- A program with arrays runs the same over `firm A`. -/
theorem firm_aplay (sz : Nat) (A : Allocator) (b : Nat) (ops : List ArrOp) : asoften (aplay sz (firm A) b ops) = aplay sz A b ops :=
  asoften_bind _ _ rfl _ _ fun s => firm_arun sz (A := A) ⟨s, [], []⟩ ops

/-! ### What containers print -/

section
variable {Q : Msg → Prop}

theorem Says.memcpy (d s n : Nat) : Says Q (M.memcpy d s n) :=
  Says.ite Says.ub (Says.bind (Says.readBytes _ _) fun _ => Says.writeBytes _ _)

theorem Says.memmove (d s n : Nat) : Says Q (M.memmove d s n) := Says.bind (Says.readBytes _ _) fun _ => Says.writeBytes _ _

theorem Says.fetch (n : Nat) (x : Arg) : Says Q (x.fetch n) := by
  cases x
  · exact Says.pure _
  · exact Says.readBytes _ _

theorem Says.copy (d n : Nat) (x : Arg) : Says Q (x.copy d n) := by
  cases x
  · exact Says.writeBytes _ _
  · exact Says.memcpy _ _ _

variable {A : Allocator} (hA : ∀ s n, Says Q (A.alloc s n)) (hD : ∀ s p n, Says Q (A.dealloc s p n))
include hA

theorem Says.grab (sz : Nat) (s : A.St) (n : Nat) : Says Q (KTL.grab sz A s n) :=
  Says.bind (hA _ _) fun _ => Says.ite Says.oom (Says.pure _)

theorem Vec.says_ofSize (sz : Nat) (s : A.St) (n : Nat) : Says Q (Vec.ofSize sz A s n) :=
  Says.bind (Says.grab hA _ _ _) fun _ => Says.pure _

theorem Arr.says_ofSize (sz : Nat) (s : A.St) (n : Nat) : Says Q (Arr.ofSize sz A s n) :=
  Says.bind (Says.grab hA _ _ _) fun _ => Says.pure _

omit hA
include hD

theorem Vec.says_destroy (sz : Nat) (s : A.St) (v : Vec) : Says Q (v.destroy sz A s) := Says.ite (hD _ _ _) (Says.pure _)

theorem Arr.says_destroy (sz : Nat) (s : A.St) (v : Arr) : Says Q (v.destroy sz A s) := Says.ite (hD _ _ _) (Says.pure _)

theorem Vecs.says_destroyAll (sz : Nat) (s : A.St) (vs : List Vec) : Says Q (Vecs.destroyAll sz s vs) := by
  induction vs generalizing s with
  | nil => exact Says.pure _
  | cons v vs ih => exact Says.bind (Vec.says_destroy hD _ _ _) fun _ => ih _

theorem Arrs.says_destroyAll (sz : Nat) (s : A.St) (vs : List Arr) : Says Q (Arrs.destroyAll sz s vs) := by
  induction vs generalizing s with
  | nil => exact Says.pure _
  | cons v vs ih => exact Says.bind (Arr.says_destroy hD _ _ _) fun _ => ih _

include hA

theorem Vec.says_setSize (sz : Nat) (s : A.St) (v : Vec) (n : Nat) : Says Q (v.setSize sz A s n) :=
  Says.bind (Says.grab hA _ _ _) fun _ => Says.ite (Says.bind (Says.memcpy _ _ _) fun _ => Says.bind (hD _ _ _) fun _ => Says.pure _) (Says.bind (Says.pure _) fun _ => Says.pure _)

theorem Vecs.says_step (sz : Nat) (c : Vecs A) (o : VOp) : Says Q (c.step sz o) := by
  have hG : ∀ (v : Vec) s n, Says Q (v.setSize sz A s n) := fun v s n => Vec.says_setSize hA hD sz s v n
  have hS : ∀ s n, Says Q (Vec.ofSize sz A s n) := Vec.says_ofSize hA sz
  have hX : ∀ s (v : Vec), Says Q (v.destroy sz A s) := Vec.says_destroy hD sz
  cases o with
  | new => exact Says.pure _
  | newSize n => exact Says.bind (hS _ _) fun _ => Says.pure _
  | newFill n x =>
    exact Says.ite (Says.bind (Says.bind (hS _ _) fun _ => Says.iteBind (Says.pure _) (Says.fetch _ _) fun _ =>
      Says.bind (Says.writeBytes _ _) fun _ => Says.pure _) fun _ => Says.pure _) (Says.pure _)
  | newRange xs => exact Says.ite (Says.bind (Says.bind (hS _ _) fun _ => Says.bind (Says.copy _ _ _) fun _ => Says.pure _) fun _ => Says.pure _) (Says.pure _)
  | copy j =>
    simp only [Vecs.step]
    split
    · refine Says.bind (Says.bind (hS _ _) fun _ => ?_) fun _ => Says.pure _
      exact Says.ite (Says.bind (Says.memcpy _ _ _) fun _ => Says.pure _) (Says.pure _)
    · exact Says.pure _
  | move j => simp only [Vecs.step]; split <;> exact Says.pure _
  | copyAssign i j =>
    simp only [Vecs.step, Vecs.copyAssign]
    refine Says.ite (Says.pure _) ?_
    split
    · exact Says.bind (hX _ _) fun _ => Says.bind (hS _ _) fun _ => Says.bind (Says.memcpy _ _ _) fun _ => Says.pure _
    · exact Says.pure _
  | moveAssign i j =>
    simp only [Vecs.step, Vecs.moveAssign]
    split
    · exact Says.bind (hX _ _) fun _ => Says.pure _
    · exact Says.pure _
  | destroy i =>
    simp only [Vecs.step]
    split
    · exact Says.bind (hX _ _) fun _ => Says.pure _
    · exact Says.pure _
  | push i x =>
    simp only [Vecs.step]
    split
    · refine Says.ite (Says.bind (Says.iteBind (hG _ _ _) (Says.pure _) fun _ => Says.bind (Says.fetch _ _) fun _ =>
        Says.bind (Says.writeBytes _ _) fun _ => Says.pure _) fun _ => Says.bind (Says.readBytes _ _) fun _ => Says.pure _) (Says.pure _)
    · exact Says.pure _
  | pushRange i xs =>
    simp only [Vecs.step]
    split
    · refine Says.ite (Says.bind (Says.iteBind (hG _ _ _) (Says.pure _) fun _ => Says.bind (Says.copy _ _ _) fun _ => Says.pure _) fun _ =>
        Says.bind (Says.readBytes _ _) fun _ => Says.pure _) (Says.pure _)
    · exact Says.pure _
  | pushFrom i j a n =>
    simp only [Vecs.step]
    split
    · refine Says.ite (Says.bind (Says.iteBind (hG _ _ _) (Says.pure _) fun _ => Says.bind (Says.copy _ _ _) fun _ => Says.pure _) fun _ =>
        Says.bind (Says.readBytes _ _) fun _ => Says.pure _) (Says.pure _)
    · exact Says.pure _
  | erase i k =>
    simp only [Vecs.step]
    split
    · exact Says.ite (Says.bind (Says.bind (Says.memmove _ _ _) fun _ => Says.pure _) fun _ => Says.bind (Says.readBytes _ _) fun _ => Says.pure _) (Says.pure _)
    · exact Says.pure _
  | eraseRange i a n =>
    simp only [Vecs.step]
    split
    · exact Says.ite (Says.bind (Says.bind (Says.memmove _ _ _) fun _ => Says.pure _) fun _ => Says.bind (Says.readBytes _ _) fun _ => Says.pure _) (Says.pure _)
    · exact Says.pure _
  | resize i n =>
    simp only [Vecs.step]
    split
    · exact Says.bind (Says.iteBind (hG _ _ _) (Says.pure _) fun _ => Says.pure _) fun _ => Says.pure _
    · exact Says.pure _
  | reserve i n =>
    simp only [Vecs.step]
    split
    · exact Says.bind (Says.ite (hG _ _ _) (Says.pure _)) fun _ => Says.pure _
    · exact Says.pure _
  | clear i => simp only [Vecs.step]; split <;> exact Says.pure _
  | write i k x =>
    simp only [Vecs.step]
    split
    · exact Says.ite (Says.bind (Says.writeBytes _ _) fun _ => Says.pure _) (Says.pure _)
    · exact Says.pure _
  | read i k =>
    simp only [Vecs.step]
    split
    · exact Says.ite (Says.bind (Says.readBytes _ _) fun _ => Says.pure _) (Says.pure _)
    · exact Says.pure _

theorem Arrs.says_step (sz : Nat) (c : Arrs A) (o : ArrOp) : Says Q (c.step sz o) := by
  have hS : ∀ s n, Says Q (Arr.ofSize sz A s n) := Arr.says_ofSize hA sz
  have hG : ∀ s n, Says Q (grab sz A s n) := Says.grab hA sz
  have hX : ∀ s (v : Arr), Says Q (v.destroy sz A s) := Arr.says_destroy hD sz
  have hR : ∀ s (v : Arr) n x, Says Q (v.assign sz A s n x) := fun s v n x =>
    Says.bind (Says.ite (Says.bind (hG _ _) fun _ => Says.bind (hX _ _) fun _ => Says.pure _) (Says.pure _)) fun _ =>
      Says.bind (Says.copy _ _ _) fun _ => Says.pure _
  cases o with
  | new => exact Says.pure _
  | newSize n => exact Says.bind (hS _ _) fun _ => Says.pure _
  | newFill n x =>
    exact Says.ite (Says.bind (Says.bind (hS _ _) fun _ => Says.iteBind (Says.pure _) (Says.fetch _ _) fun _ =>
      Says.bind (Says.writeBytes _ _) fun _ => Says.pure _) fun _ => Says.pure _) (Says.pure _)
  | newRange xs => exact Says.ite (Says.bind (Says.bind (hS _ _) fun _ => Says.bind (Says.copy _ _ _) fun _ => Says.pure _) fun _ => Says.pure _) (Says.pure _)
  | copy j =>
    simp only [Arrs.step]
    split
    · refine Says.bind (Says.bind (hS _ _) fun _ => ?_) fun _ => Says.pure _
      exact Says.ite (Says.bind (Says.memcpy _ _ _) fun _ => Says.pure _) (Says.pure _)
    · exact Says.pure _
  | move j => simp only [Arrs.step]; split <;> exact Says.pure _
  | copyAssign i j =>
    simp only [Arrs.step, Arrs.copyAssign]
    refine Says.ite (Says.pure _) ?_
    split
    · exact Says.bind (hX _ _) fun _ => Says.bind (hS _ _) fun _ => Says.bind (Says.memcpy _ _ _) fun _ => Says.pure _
    · exact Says.pure _
  | moveAssign i j =>
    simp only [Arrs.step, Arrs.moveAssign]
    split
    · exact Says.bind (hX _ _) fun _ => Says.pure _
    · exact Says.pure _
  | destroy i =>
    simp only [Arrs.step]
    split
    · exact Says.bind (hX _ _) fun _ => Says.pure _
    · exact Says.pure _
  | resize i n =>
    simp only [Arrs.step]
    split
    · exact Says.bind (Says.ite (Says.bind (hG _ _) fun _ => Says.ite (Says.bind (Says.memcpy _ _ _) fun _ => Says.bind (hD _ _ _) fun _ => Says.pure _)
        (Says.bind (Says.pure _) fun _ => Says.pure _)) (Says.pure _)) fun _ => Says.pure _
    · exact Says.pure _
  | assign i xs =>
    simp only [Arrs.step]
    split
    · exact Says.ite (Says.bind (hR _ _ _ _) fun _ => Says.pure _) (Says.pure _)
    · exact Says.pure _
  | assignFrom i j a n =>
    simp only [Arrs.step]
    split
    · exact Says.ite (Says.bind (hR _ _ _ _) fun _ => Says.pure _) (Says.pure _)
    · exact Says.pure _
  | write i k x =>
    simp only [Arrs.step]
    split
    · exact Says.ite (Says.bind (Says.writeBytes _ _) fun _ => Says.pure _) (Says.pure _)
    · exact Says.pure _
  | read i k =>
    simp only [Arrs.step]
    split
    · exact Says.ite (Says.bind (Says.readBytes _ _) fun _ => Says.pure _) (Says.pure _)
    · exact Says.pure _

theorem Vecs.says_run (sz : Nat) (c : Vecs A) (ops : List VOp) : Says Q (c.run sz ops) := by
  induction ops generalizing c with
  | nil => exact Says.pure _
  | cons o os ih => exact Says.bind (Vecs.says_step hA hD sz c o) fun c' => ih c'

theorem Arrs.says_run (sz : Nat) (c : Arrs A) (ops : List ArrOp) : Says Q (c.run sz ops) := by
  induction ops generalizing c with
  | nil => exact Says.pure _
  | cons o os ih => exact Says.bind (Arrs.says_step hA hD sz c o) fun c' => ih c'

end

end KTL
