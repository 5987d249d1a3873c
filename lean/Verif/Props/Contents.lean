import Verif.Spec.Ghost

/- C86: what the allocators do does not depend on the contents of memory. -/
namespace KTL
variable {τ : Prop}

/-! ### Specification -/

/-- the operation without the value it stores -/
def Op.shape : Op → Op
  | .write i off _ => .write i off 0
  | o => o

/-! ### Clients side by side -/

/-- The same blocks; the bytes in them may differ. -/
structure ClientR {A B : Allocator} (R : A.St → B.St → Prop) (c : Client A) (d : Client B) : Prop where
  st : R c.st d.st
  live : c.live.map blk = d.live.map blk
  foreign : c.foreign.map blk = d.foreign.map blk
  refused : c.refused = d.refused
  built : c.built = d.built

theorem blk_get {l m : List (Nat × List UInt8)} (h : l.map blk = m.map blk) (i : Nat) :
    (l[i]? = none ∧ m[i]? = none) ∨ ∃ x y, l[i]? = some x ∧ m[i]? = some y ∧ x.1 = y.1 ∧ x.2.length = y.2.length := by
  have := congrArg (·[i]?) h
  simp only [List.getElem?_map] at this
  cases h1 : l[i]? with
  | none =>
    cases h2 : m[i]? with
    | none => exact .inl ⟨rfl, rfl⟩
    | some y => rw [h1, h2] at this; simp at this
  | some x =>
    cases h2 : m[i]? with
    | none => rw [h1, h2] at this; simp at this
    | some y =>
      rw [h1, h2] at this
      simp only [Option.map_some, Option.some.injEq, blk, Prod.mk.injEq] at this
      exact .inr ⟨x, y, rfl, rfl, this.1, this.2⟩

theorem eraseIdx_blk {l m : List (Nat × List UInt8)} (h : l.map blk = m.map blk) (i : Nat) :
    (l.eraseIdx i).map blk = (m.eraseIdx i).map blk := by
  induction l generalizing m i with
  | nil =>
    cases m with
    | nil => rfl
    | cons _ _ => simp at h
  | cons x l ih =>
    cases m with
    | nil => simp at h
    | cons y m =>
      simp only [List.map_cons, List.cons.injEq] at h
      cases i with
      | zero => exact h.2
      | succ i => simp only [List.eraseIdx_cons_succ, List.map_cons, h.1, ih h.2 i]

theorem callOpt_twins {A B : Allocator} {R : A.St → B.St → Prop} {c d} (h : TwinOpt τ R c d) {s t} (hr : R s t) (p : Nat) :
    Twins τ R (callOpt c s p) (callOpt d t p) := by
  cases c <;> cases d <;> first | exact h.elim | exact Twins.pure hr | exact h s t hr p

theorem step_twins {sys sys' : Sys} (hs : sys.Alike sys') {A B : Allocator} {R : A.St → B.St → Prop} (h : Twin τ A B R)
    {c : Client A} {d : Client B} (hc : ClientR R c d) {o o' : Op} (ho : o.shape = o'.shape) :
    Twins τ (ClientR R) (c.step sys o) (d.step sys' o') := by
  obtain ⟨h1, h2, h3, h4, h5⟩ := hc
  cases o with
  | allocate n =>
    obtain rfl : Op.allocate n = o' := by cases o' <;> simp [Op.shape] at ho ⊢; exact ho
    refine Twins.bind (h.alloc _ _ h1 n) fun r q ⟨e, hq⟩ => ?_
    rw [e]
    refine Twins.ite (fun _ => Twins.pure ⟨hq, h2, h3, by simp only [h4], h5⟩) fun _ => ?_
    refine Twins.bind (Twins.readBytes _ _) fun x y hl => Twins.pure ⟨hq, ?_, h3, h4, h5⟩
    simp only [List.map_cons, blk, hl.1, hl.2]
    exact congrArg _ h2
  | deallocate i =>
    obtain rfl : Op.deallocate i = o' := by cases o' <;> simp [Op.shape] at ho ⊢; exact ho
    simp only [Client.step]
    rcases blk_get h2 i with ⟨e1, e2⟩ | ⟨x, y, e1, e2, e3, e4⟩
    · rw [e1, e2]; exact Twins.pure ⟨h1, h2, h3, h4, h5⟩
    · rw [e1, e2]
      simp only [e3, e4]
      refine Twins.bind (h.dealloc _ _ h1 _ _) fun r q hq => Twins.pure ⟨hq, ?_, h3, h4, h5⟩
      exact eraseIdx_blk h2 i
  | write i off v =>
    obtain ⟨v', rfl⟩ : ∃ v', Op.write i off v' = o' := by
      cases o' <;> simp [Op.shape] at ho
      exact ⟨_, by rw [ho.1, ho.2]⟩
    simp only [Client.step]
    rcases blk_get h2 i with ⟨e1, e2⟩ | ⟨x, y, e1, e2, e3, e4⟩
    · rw [e1, e2]; exact Twins.pure ⟨h1, h2, h3, h4, h5⟩
    · rw [e1, e2]
      simp only [e3, e4]
      refine Twins.ite (fun _ => ?_) fun _ => Twins.pure ⟨h1, h2, h3, h4, h5⟩
      refine Twins.bind (Twins.store _ _ _) fun _ _ _ => Twins.pure ⟨h1, ?_, h3, h4, h5⟩
      simp only [List.map_set, blk, List.length_set, e4]
      exact congrArg (fun l : List (Nat × Nat) => l.set i (y.1, y.2.length)) h2
  | construct i off =>
    obtain rfl : Op.construct i off = o' := by cases o' <;> simp [Op.shape] at ho ⊢; exact ho
    simp only [Client.step]
    rcases blk_get h2 i with ⟨e1, e2⟩ | ⟨x, y, e1, e2, e3, e4⟩
    · rw [e1, e2]; exact Twins.pure ⟨h1, h2, h3, h4, h5⟩
    · rw [e1, e2]
      simp only [e3]
      exact Twins.bind (callOpt_twins h.construct h1 _) fun _ _ hq => Twins.pure ⟨hq, h2, h3, h4, by simp only [h5]⟩
  | destroy i off =>
    obtain rfl : Op.destroy i off = o' := by cases o' <;> simp [Op.shape] at ho ⊢; exact ho
    simp only [Client.step]
    rcases blk_get h2 i with ⟨e1, e2⟩ | ⟨x, y, e1, e2, e3, e4⟩
    · rw [e1, e2]; exact Twins.pure ⟨h1, h2, h3, h4, h5⟩
    · rw [e1, e2]
      simp only [e3]
      exact Twins.bind (callOpt_twins h.destroy h1 _) fun _ _ hq => Twins.pure ⟨hq, h2, h3, h4, by simp only [h5]⟩
  | foreign n =>
    obtain rfl : Op.foreign n = o' := by cases o' <;> simp [Op.shape] at ho ⊢; exact ho
    refine Twins.bind (Twins.cMalloc hs n) ?_
    rintro p _ rfl
    refine Twins.ite (fun _ => Twins.pure ⟨h1, h2, h3, h4, h5⟩) fun _ => ?_
    refine Twins.bind (Twins.readBytes _ _) fun x y hl => Twins.pure ⟨h1, h2, ?_, h4, h5⟩
    simp only [List.map_cons, blk, hl.1, hl.2]
    exact congrArg _ h3

theorem run_twins {sys sys' : Sys} (hs : sys.Alike sys') {A B : Allocator} {R : A.St → B.St → Prop} (h : Twin τ A B R)
    (ops ops' : List Op) (ho : ops.map Op.shape = ops'.map Op.shape) (c : Client A) (d : Client B) (hc : ClientR R c d) :
    Twins τ (ClientR R) (c.run sys ops) (d.run sys' ops') := by
  induction ops generalizing ops' c d with
  | nil =>
    cases ops' with
    | nil => exact Twins.pure hc
    | cons _ _ => simp at ho
  | cons o ops ih =>
    cases ops' with
    | nil => simp at ho
    | cons o' ops' =>
      simp only [List.map_cons, List.cons.injEq] at ho
      exact Twins.bind (step_twins hs h hc ho.1) fun c' d' hc' => ih ops' ho.2 c' d' hc'

theorem play_twins {sys sys' : Sys} (hs : sys.Alike sys') {A B : Allocator} {R : A.St → B.St → Prop} (h : Twin τ A B R)
    (b : Nat) (ops ops' : List Op) (ho : ops.map Op.shape = ops'.map Op.shape) :
    Twins τ (ClientR R) (play sys A b ops) (play sys' B b ops') :=
  Twins.bind (h.init b) fun _ _ hr => run_twins hs h ops ops' ho _ _ ⟨hr, rfl, rfl, rfl, rfl⟩

/-- The checked class runs like the original on every program that follows the rules, destructor included. -/
theorem ghost_play (sys : Sys) (t : AllocTy) (hwf : t.WF) {f : (t.ghost sys).St → (t.denote sys).St}
    (hr : Refines (t.ghost sys) (t.denote sys) f) (b : Nat) (w : World) (hs : Storage w b t.size)
    (ops : List Op) (hops : Sane t ops) :
    match play sys (t.ghost sys) b ops w with
    | .ok c w' => play sys (t.denote sys) b ops w = .ok (c.map f) w' ∧
        (c.live = [] → (t.ghost sys).fini c.st w' ≠ .ub ∧ (t.ghost sys).fini c.st w' = (t.denote sys).fini (f c.st) w')
    | .oom w' => play sys (t.denote sys) b ops w = .oom w'
    | .ub => False := by
  have hh := sound_history sys (t.gsound sys hwf) b w (by rw [t.ghost_size]; exact hs) ops (hops.fits sys hwf)
  have hb := play_below sys hr b ops w
  cases hp : play sys (t.ghost sys) b ops w with
  | ub => rw [hp] at hh; exact hh
  | oom w' =>
    rw [hp, M.bind_apply, hp] at hb
    exact (hb.resolve_left (by simp)).symm
  | ok c w' =>
    rw [hp, M.bind_apply, hp] at hb
    refine ⟨(hb.resolve_left (by simp)).symm, fun hl => ?_⟩
    rw [hp] at hh
    obtain ⟨h, hf, hd, he, hI⟩ := hh
    have hfin := ((t.gsound sys hwf).fini_spec b c.st).frame (blocksV c.live ∗ foreignV c.foreign)
    have hI' : ((t.gsound sys hwf).Inv b c.st [] ∗ (blocksV c.live ∗ foreignV c.foreign)) h := by
      have : ((t.gsound sys hwf).Inv b c.st (c.live.map blk) ∗ (blocksV c.live ∗ foreignV c.foreign)) h := hI
      rw [hl, List.map_nil] at this
      rw [hl]; exact this
    have h3 := hfin w' h hf hd he hI'
    have hnub : (t.ghost sys).fini c.st w' ≠ .ub := by
      intro hub
      rw [hub] at h3
      exact h3
    refine ⟨hnub, ?_⟩
    rcases hr.fini c.st w' with h4 | h4
    · exact absurd h4 hnub
    · exact (congrFun (bind_pure ((t.ghost sys).fini c.st)).symm w').trans h4

theorem Sane.shape {t : AllocTy} {ops ops' : List Op} (h : Sane t ops) (ho : ops.map Op.shape = ops'.map Op.shape) : Sane t ops' := by
  intro n hn
  apply h n
  have h1 : Op.allocate n ∈ ops'.map Op.shape := List.mem_map.2 ⟨_, hn, rfl⟩
  rw [← ho] at h1
  obtain ⟨o, h2, h3⟩ := List.mem_map.1 h1
  cases o <;> simp [Op.shape] at h3
  subst h3; exact h2

/-! ### C86 -/

/-- C86: run a program twice, in memories that differ in their contents, with C libraries that fill new blocks
differently, storing different values in the blocks. The same requests are answered with the same blocks, the same
requests are refused, the same blocks are taken from and given back to `malloc`, the same objects are constructed and
destroyed, the same reports are printed; and if all blocks have been given back, the destructors do the same too.
(`hp`: on the platform where `aligned_malloc` keeps a pointer in front of each block, the `malloc` blocks that exist in
the beginning are sound.) -/
theorem C86_contents_do_not_matter (sys sys' : Sys) (hsys : sys.Alike sys') (t : AllocTy) (hwf : t.WF) (b : Nat) (w w' : World) (hw : w.Alike w') (hs : Storage w b t.size)
    (hp : t.usesMalloc = true → sys.plat = .manual → w.heap.Tidy) (ops ops' : List Op) (hops : Sane t ops) (hsame : ops.map Op.shape = ops'.map Op.shape) :
    match play sys (t.denote sys) b ops w, play sys' (t.denote sys') b ops' w' with
    | .ok c v, .ok c' v' => c.live.map blk = c'.live.map blk ∧ c.foreign.map blk = c'.foreign.map blk ∧
        c.refused = c'.refused ∧ c.built = c'.built ∧ v.Alike v' ∧
        (c.live = [] → match (t.denote sys).fini c.st v, (t.denote sys').fini c'.st v' with
          | .ok _ u, .ok _ u' => u.Alike u'
          | .oom u, .oom u' => u.Alike u'
          | _, _ => False)
    | .oom v, .oom v' => v.Alike v'
    | _, _ => False := by
  obtain ⟨R, hR⟩ := t.ghost_twin hsys hp
  obtain ⟨f, hf⟩ := t.ghost_refines sys
  obtain ⟨f', hf'⟩ := t.ghost_refines sys'
  have hs' : Storage w' b t.size := ⟨hs.1, hs.2.1, hs.2.2.1, fun x h1 h2 => by rw [← hw.heap.1]; exact hs.2.2.2 x h1 h2⟩
  have e1 := ghost_play sys t hwf hf b w hs ops hops
  have e2 := ghost_play sys' t hwf hf' b w' hs' ops' (hops.shape hsame)
  have e3 := play_twins hsys hR b ops ops' hsame w w' ⟨hw, id⟩
  revert e1 e2 e3
  cases play sys (t.ghost sys) b ops w with
  | ub => exact fun h => h.elim
  | oom v =>
    cases play sys' (t.ghost sys') b ops' w' with
    | ub => exact fun _ h => h.elim
    | oom v' => intro e1 e2 e3; rw [e1, e2]; exact e3.1
    | ok c' v' => exact fun _ _ h => h.elim
  | ok c v =>
    cases play sys' (t.ghost sys') b ops' w' with
    | ub => exact fun _ h => h.elim
    | oom v' => exact fun _ _ h => h.elim
    | ok c' v' =>
      rintro ⟨e1, g1⟩ ⟨e2, g2⟩ ⟨e3, hv⟩
      rw [e1, e2]
      refine ⟨e3.live, e3.foreign, e3.refused, e3.built, hv.1, fun hl => ?_⟩
      have hl1 : c.live = [] := hl
      have hl2 : c'.live = [] := by
        have := e3.live
        rw [hl1] at this
        exact List.map_eq_nil_iff.1 this.symm
      obtain ⟨n1, q1⟩ := g1 hl1
      obtain ⟨n2, q2⟩ := g2 hl2
      have e4 := hR.fini _ _ e3.st v v' hv
      show match (t.denote sys).fini (f c.st) v, (t.denote sys').fini (f' c'.st) v' with
        | .ok _ u, .ok _ u' => u.Alike u'
        | .oom u, .oom u' => u.Alike u'
        | _, _ => False
      rw [← q1, ← q2]
      revert e4 n1 n2
      cases (t.ghost sys).fini c.st v <;> cases (t.ghost sys').fini c'.st v' <;> intro n1 n2 e4 <;>
        first | exact (n1 rfl).elim | exact (n2 rfl).elim | exact e4.elim | exact e4.2.1 | exact e4.1

/-! Non-trivial case. -/

/-- the concrete `malloc` of the other examples, filling every new block with `v` -/
def fillSys (plat : Plat) (v : UInt8) : Sys where
  plat := plat
  malloc k h n := ((demoSys plat).malloc k h n).map fun x => (x.1, fun _ => v)
  valid := by
    intro k h n a c hm
    obtain ⟨x, h1, h2⟩ := Option.map_eq_some_iff.1 hm
    cases h2
    exact (demoSys plat).valid k h n x.1 x.2 h1

theorem fillSys_alike (plat : Plat) (v v' : UInt8) : (fillSys plat v).Alike (fillSys plat v') where
  plat := rfl
  malloc k h h' n hh := by
    have e : ∀ x, h.b x = none ↔ h'.b x = none := by
      intro x
      have := hh.1 x
      rw [← Option.isNone_iff_eq_none, ← Option.isNone_iff_eq_none, ← Option.not_isSome, ← Option.not_isSome, this]
    simp only [fillSys, demoSys, hh.2, e, Option.map_map]
    split <;> rfl

/-- storage with other contents -/
def otherWorld (n : Nat) : World := { demoWorld n with heap := ⟨fun x => if 4096 ≤ x ∧ x < 4096 + n then some 77 else none, fun _ => none⟩ }

theorem otherWorld_alike (n : Nat) : (demoWorld n).Alike (otherWorld n) := by
  refine ⟨⟨fun x => ?_, rfl⟩, rfl, rfl, rfl, rfl⟩
  simp only [demoWorld, otherWorld]
  split <;> rfl

/-- a free list over a cascade, guarded, with blocks of other users in between -/
def contentsTy : AllocTy := .overflow (.fallback (.freelist 0 160 (.cascading (.linear 192))) .mallocator)

example : contentsTy.WF ∧ contentsTy.usesMalloc = true := by decide

def contentsOps (v : UInt8) : List Op :=
  [.allocate 10, .write 0 7 v, .allocate 40, .foreign 32, .deallocate 1, .write 0 39 v, .allocate 5, .construct 0 3]

example (v v' : UInt8) : (contentsOps v).map Op.shape = (contentsOps v').map Op.shape := rfl

example (v : UInt8) : Sane contentsTy (contentsOps v) := by
  intro n hn
  simp only [contentsOps, List.mem_cons, Op.allocate.injEq, reduceCtorEq, List.not_mem_nil, or_false, false_or] at hn
  rcases hn with rfl | rfl | rfl <;> decide

/-- no `malloc` blocks in the beginning -/
example (n : Nat) : (demoWorld n).heap.Tidy := ⟨fun _ _ h => (by cases h), fun _ _ _ _ h => (by cases h)⟩

/-- the two runs, on both platforms: the same blocks, different contents -/
example (plat : Plat) : (play (fillSys plat 0) (contentsTy.denote (fillSys plat 0)) 4096 (contentsOps 1) (demoWorld contentsTy.size)).test (fun c v =>
    (play (fillSys plat 255) (contentsTy.denote (fillSys plat 255)) 4096 (contentsOps 2) (otherWorld contentsTy.size)).test (fun c' v' =>
      decide (c.live.map blk = c'.live.map blk) && decide (c.live ≠ c'.live) && decide (c.live.length = 2) && decide (v.log = v'.log)
        && decide (v.log ≠ []))) = true := by cases plat <;> decide +kernel

end KTL
