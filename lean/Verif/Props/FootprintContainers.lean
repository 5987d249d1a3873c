import Verif.Props.Footprint
import Verif.Props.Array
import Verif.Props.BinaryHeapCost
import Verif.Props.Enough

/- C102 for programs with containers: what they hold from `malloc` is bounded by the largest number of containers that exist at
the same time, however long they run. -/
namespace KTL

/-! ### An allocator that counts

Proof machinery: the allocator with its books, a count of the blocks in use and a limit `q`, at which it refuses. It satisfies the
contract, so the rules for the containers apply to it; and a program that never reaches the limit does not notice. -/

/-- refuse for lack of memory -/
def refuse {σ : Type} (s : σ) : M (Nat × σ) := fun w => .ok (0, s) { w with failed := true }

/-- the allocator with a count and a limit -/
def ration (sys : Sys) (t : AllocTy) (q : Nat) : Allocator where
  St := (t.book sys).St × Nat
  objSize := (t.book sys).objSize
  init b := do
    let s ← (t.book sys).init b
    pure (s, 0)
  alloc s n := if s.2 < q then do
      let r ← (t.book sys).alloc s.1 n
      pure (r.1, r.2, if r.1 = 0 then s.2 else s.2 + 1)
    else refuse s
  dealloc s p n := do
    let s' ← (t.book sys).dealloc s.1 p n
    pure (s', s.2 - 1)
  owns := none
  maxSize := none
  construct := none
  destroy := none
  fini s := (t.book sys).fini s.1

/-- what may be requested -/
def AllocTy.Fair (t : AllocTy) (plat : Plat) (n : Nat) : Prop := t.fits plat n ∧ n + t.margin < W64 ∧ t.Thrifty n

theorem ration_triple {α : Type} {P : HProp} {c : M α} {Q Q' : α → HProp} {R : α → Prop} (h : Triple P c Q) (hp : ∀ h, P h → Post c R)
    (hq : ∀ a h, R a → Q a h → Q' a h) : Triple P c Q' := by
  intro w h0 hf hd he hh
  have h1 := h w h0 hf hd he hh
  have h2 := hp h0 hh w
  cases e : c w with
  | ok a w' =>
    rw [e] at h1
    obtain ⟨⟨h', k1, k2, k3⟩, k4⟩ := h1
    exact ⟨⟨h', k1, k2, hq a h' (h2 a w' e) k3⟩, k4⟩
  | oom w' => rw [e] at h1; exact h1
  | ub => rw [e] at h1; exact h1

def ration_sound (sys : Sys) (t : AllocTy) (hwf : t.WF) (q : Nat) : Sound (ration sys t q) (t.Fair sys.plat) where
  Inv b s L := fun h => (s.2 = L.length ∧ L.length ≤ q ∧ t.Tight sys q s.1 ∧ ∀ c ∈ L, t.Fair sys.plat c.2) ∧ (t.bsound sys hwf).Inv b s.1 L h
  objAlign := (t.bsound sys hwf).objAlign
  perm := fun hp ⟨⟨h1, h2, h3, h4⟩, h5⟩ => ⟨⟨h1.trans hp.length_eq, hp.length_eq ▸ h2, h3, fun c hc => h4 c (hp.mem_iff.2 hc)⟩,
    (t.bsound sys hwf).perm hp h5⟩
  init_spec := by
    intro b h1 h2 h3
    refine Triple.bind (R := fun s h => t.Tight sys q s ∧ (t.bsound sys hwf).Inv b s [] h)
      (ration_triple ((t.bsound sys hwf).init_spec b h1 h2 h3) (fun _ _ => t.init_tight sys q b) fun a h k1 k2 => ⟨k1, k2⟩) fun s => ?_
    exact Triple.pure _ fun h hh => ⟨⟨rfl, Nat.zero_le _, hh.1, fun c hc => by cases hc⟩, hh.2⟩
  alloc_spec := by
    intro b s L n hf hn
    refine Triple.and fun ⟨h1, h2, h3, h4⟩ => ?_
    by_cases hlt : s.2 < q
    · have e : (ration sys t q).alloc s n = (t.book sys).alloc s.1 n >>= fun r => pure (r.1, r.2, if r.1 = 0 then s.2 else s.2 + 1) := if_pos hlt
      rw [e]
      refine Triple.bind (ration_triple (R := fun r => t.Tight sys q r.2) (Q' := fun r h => t.Tight sys q r.2 ∧
          ((r.1 = 0 ∧ (t.bsound sys hwf).Inv b r.2 L h) ∨ (Good r.1 n ∧ ((t.bsound sys hwf).Inv b r.2 ((r.1, n) :: L) ∗ bytes r.1 n) h)))
        ((t.bsound sys hwf).alloc_spec b s.1 L n hf.1 hn)
        (fun h hI w r w' e => t.alloc_tight sys q hwf b s.1 L h hI n hf.2.1 hf.2.2 h3 w r w' e fun _ => by omega) fun a h k1 k2 => ⟨k1, k2⟩) fun r => ?_
      refine Triple.pure _ fun h ⟨k1, k2⟩ => ?_
      rcases k2 with ⟨k2, k3⟩ | ⟨k2, k3⟩
      · exact .inl ⟨k2, ⟨by dsimp only; rw [if_pos k2]; exact h1, h2, k1, h4⟩, k3⟩
      · refine .inr ⟨k2, ?_⟩
        rw [star_and]
        refine ⟨⟨by dsimp only; rw [if_neg k2.1, h1]; rfl, by rw [List.length_cons]; omega, k1, fun c hc => ?_⟩, k3⟩
        rcases List.mem_cons.1 hc with rfl | hc
        · exact hf
        · exact h4 c hc
    · have e : (ration sys t q).alloc s n = refuse s := if_neg hlt
      rw [e]
      intro w h hf' hd he hh
      exact ⟨⟨h, hd, he, .inl ⟨rfl, ⟨h1, h2, h3, h4⟩, hh⟩⟩, .rfl'⟩
  dealloc_local := by
    intro b s p bs R k hk
    rw [star_and]
    refine apart_and fun ⟨h1, h2, h3, h4⟩ => ?_
    refine Triple.bind (ration_triple (Q' := fun s' h => t.Tight sys q s' ∧ (t.bsound sys hwf).Inv b s' (R.map blk) h)
      ((t.bsound sys hwf).dealloc_local b s.1 p bs R k hk) (fun _ _ => t.dealloc_tight sys q s.1 p bs.length h3) fun a h k1 k2 => ⟨k1, k2⟩) fun s' => ?_
    refine Triple.pure _ fun h ⟨k1, k2⟩ => ?_
    rw [List.length_cons] at h1 h2
    exact ⟨⟨by dsimp only; omega, by omega, k1, fun c hc => h4 c (List.mem_cons_of_mem _ hc)⟩, k2⟩
  live_good := fun ⟨⟨_, _, _, h4⟩, h5⟩ hm => ⟨((t.bsound sys hwf).live_good h5 hm).1, h4 _ hm⟩
  live_max := by intro f hf; cases hf
  owns_sound := by intro f hf; cases hf
  owns_complete := by intro f hf; cases hf
  construct_spec := by intro f hf; cases hf
  destroy_spec := by intro f hf; cases hf
  fini_spec := by
    intro b s
    refine Triple.and fun _ => ?_
    exact (t.bsound sys hwf).fini_spec b s.1

section
variable {α β : Type} {sys : Sys} {t : AllocTy} {q : Nat}

/-- what the program sees of the state -/
def unration (sys : Sys) (t : AllocTy) (q : Nat) (r : (ration sys t q).St × α) : (t.denote sys).St × α := (t.unbook sys r.1.1, r.2)

/-- Here the program does not notice the limit. -/
def Unnoticed (sys : Sys) (t : AllocTy) (q : Nat) (T : Prog α) (s : (ration sys t q).St) (w : World) : Prop :=
  (T.seq (ration sys t q) s >>= fun r => pure (unration sys t q r)) w = T.seq (t.denote sys) (t.unbook sys s.1) w

theorem Below.map {γ : Type} {f : α → β} {g : α → γ} {l : γ → β} {c : M α} {d : M β} (h : Below f c d) (e : ∀ a, l (g a) = f a) :
    Below l (c >>= fun a => (Pure.pure (g a) : M γ)) d := by
  intro w
  rcases h w with h | h
  · left; rw [M.bind_apply, h]
  · right
    rw [bind_assoc]
    simp only [pure_bind, e]
    exact h

theorem Below.bindP {α β γ δ : Type} {f : α → β} {g : γ → δ} {R : α → Prop} {c : M α} {d : M β} {k : α → M γ} {l : β → M δ}
    (h : Below f c d) (hR : Post c R) (hk : ∀ a, R a → Below g (k a) (l (f a))) : Below g (c >>= k) (d >>= l) := by
  intro w
  rcases h w with e | e
  · left; rw [M.bind_apply, e]
  · cases hc : c w with
    | ok a w1 =>
      rw [M.bind_apply, hc] at e
      have e' : d w = .ok (f a) w1 := e.symm
      rcases hk a (hR w a w1 hc) w1 with e2 | e2
      · left; rw [M.bind_apply, hc]; exact e2
      · right
        rw [M.bind_apply, bind_of_ok hc, M.bind_apply (d) , e']
        rw [M.bind_apply] at e2
        exact e2
    | oom w1 =>
      rw [M.bind_apply, hc] at e
      have e' : d w = .oom w1 := e.symm
      right
      rw [M.bind_apply, M.bind_apply, M.bind_apply d, hc, e']
    | ub => left; rw [M.bind_apply, hc]

theorem ration_below {T : Prog α} {m : Nat} (hT : T.Asks m) (s : (ration sys t q).St) (hs : s.2 + m ≤ q) :
    Below (unration sys t q) (T.seq (ration sys t q) s) (T.seq (t.denote sys) (t.unbook sys s.1)) := by
  induction T generalizing m s with
  | ret a => exact Below.pure _ _ _ rfl
  | stop => exact Below.rfl' rfl
  | ub => exact Below.ub
  | load p k ih => exact Below.bind (Below.refl _) fun v => ih v (hT v) s hs
  | store p v k ih => exact Below.bind (Below.refl _) fun _ => ih hT s hs
  | alloc n k ih =>
    obtain ⟨m', rfl, hk⟩ := hT
    have e : (ration sys t q).alloc s n = (t.book sys).alloc s.1 n >>= fun r => pure (r.1, r.2, if r.1 = 0 then s.2 else s.2 + 1) := if_pos (by omega)
    refine Below.bindP (f := fun r : Nat × (ration sys t q).St => (r.1, t.unbook sys r.2.1)) (R := fun r => r.2.2 ≤ s.2 + 1)
      (k := fun r => (k r.1).seq (ration sys t q) r.2) ?_ ?_ fun r hr => ih r.1 (hk r.1) r.2 (by omega)
    · rw [e]
      exact Below.map ((AllocTy.book_refines sys t).alloc s.1 n) fun _ => rfl
    · rw [e]
      refine Post.bind' fun r => Post.pure ?_
      dsimp only
      split <;> omega
  | dealloc p n k ih =>
    refine Below.bindP (f := fun r : (ration sys t q).St => t.unbook sys r.1) (R := fun r => r.2 ≤ s.2) (k := fun r => k.seq (ration sys t q) r)
      (Below.map ((AllocTy.book_refines sys t).dealloc s.1 p n) fun _ => rfl) ?_ fun s' hs' => ih hT s' (by omega)
    exact Post.bind' fun r => Post.pure (Nat.sub_le _ _)

/-- a program that makes few requests -/
theorem Unnoticed.asks {T : Prog α} {m : Nat} (hT : T.Asks m) {s : (ration sys t q).St} (hs : s.2 + m ≤ q) {w : World}
    (hub : T.seq (ration sys t q) s w ≠ .ub) : Unnoticed sys t q T s w :=
  (ration_below hT s hs w).resolve_left hub

/-- two programs, one after the other -/
theorem Unnoticed.bind {T : Prog α} {f : α → Prog β} {s : (ration sys t q).St} {w : World} (h : Unnoticed sys t q T s w)
    (hf : ∀ r w', T.seq (ration sys t q) s w = .ok r w' → Unnoticed sys t q (f r.2) r.1 w') : Unnoticed sys t q (T >>= f) s w := by
  unfold Unnoticed at h ⊢
  rw [Prog.seq_bind, Prog.seq_bind, M.bind_apply (T.seq (t.denote sys) _), ← h, M.bind_apply, M.bind_apply, M.bind_apply]
  cases e : T.seq (ration sys t q) s w with
  | ok r w' =>
    have := hf r w' e
    unfold Unnoticed at this
    rw [M.bind_apply] at this
    exact this
  | oom w' => rfl
  | ub => rfl

/-! ### Programs in steps -/

/-- construct the allocator and run the program -/
def seqPlay (A : Allocator) (b : Nat) (T : Prog α) : M (A.St × α) := do
  let s ← A.init b
  T.seq A s

theorem seqPlay_bind (A : Allocator) (b : Nat) (T : Prog α) (f : α → Prog β) :
    seqPlay A b (T >>= f) = seqPlay A b T >>= fun r => (f r.2).seq A r.1 := by
  unfold seqPlay
  simp only [Prog.seq_bind, bind_assoc]

/-- the states a rationed program reaches -/
def Rationed (sys : Sys) (t : AllocTy) (hwf : t.WF) (q b : Nat) {X : Type} (P : X → List (Nat × List UInt8) → Prop) (T : Prog X) : Prop :=
  Triple (bytes b t.size) (seqPlay (ration sys t q) b T) fun r x => ∃ R, P r.2 R ∧ Pool (ration_sound sys t hwf q) b r.1 R x

theorem steps_unnoticed {O X : Type} (hwf : t.WF) (b : Nat) (w : World) (hs : Storage w b t.size) (T : List O → Prog X) (step : X → O → Prog X)
    (h0 : ∃ x, T [] = pure x) (hsnoc : ∀ ops o, T (ops ++ [o]) = T ops >>= fun x => step x o)
    (hstep : ∀ x o (s : (ration sys t q).St) w1, s.2 + 1 ≤ q → (step x o).seq (ration sys t q) s w1 ≠ .ub → Unnoticed sys t q (step x o) s w1)
    (size : X → Nat) (P : X → List (Nat × List UInt8) → Prop) (hP : ∀ x R, P x R → R.length ≤ size x)
    (ops : List O) (hspec : ∀ pre, pre <+: ops → Rationed sys t hwf q b P (T pre))
    (hpeak : ∀ pre r w', pre <+: ops → seqPlay (t.denote sys) b (T pre) w = .ok r w' → size r.2 + 1 ≤ q) :
    (seqPlay (ration sys t q) b (T ops) >>= fun r => pure (unration sys t q r)) w = seqPlay (t.denote sys) b (T ops) w := by
  obtain ⟨g0, hf, hd, he, hb, _⟩ := storage_split hs
  have hnub : ∀ pre, pre <+: ops → seqPlay (ration sys t q) b (T pre) w ≠ .ub := by
    intro pre hp e
    have := hspec pre hp w g0 hf hd he hb
    rw [e] at this
    exact this
  have hcnt : ∀ pre r w', pre <+: ops → seqPlay (ration sys t q) b (T pre) w = .ok r w' → r.1.2 ≤ size r.2 := by
    intro pre r w' hp e
    have := hspec pre hp w g0 hf hd he hb
    rw [e] at this
    obtain ⟨⟨x, _, _, R, hR, h1, h2, _, rfl, hI, _⟩, _⟩ := this
    have h3 := hI.1.1
    rw [List.length_map] at h3
    have := hP _ _ hR
    omega
  induction ops using snocRec with
  | nil =>
    obtain ⟨x, hx⟩ := h0
    have h1 := hnub [] (List.prefix_refl _)
    rw [hx] at h1 ⊢
    have h2 : Below (unration sys t q) (seqPlay (ration sys t q) b (pure x)) (seqPlay (t.denote sys) b (pure x)) := by
      refine Below.bind (f := fun s : (ration sys t q).St => t.unbook sys s.1)
        (k := fun s => (Pure.pure x : Prog X).seq (ration sys t q) s) (Below.map ((AllocTy.book_refines sys t).init b) fun _ => rfl) fun s => ?_
      exact Below.pure _ _ _ rfl
    exact (h2 w).resolve_left h1
  | append_singleton ops o ih =>
    have hpre : ∀ pre, pre <+: ops → pre <+: ops ++ [o] := fun pre hp => hp.trans (List.prefix_append _ _)
    have h1 := ih (fun pre hp => hspec pre (hpre pre hp)) (fun pre r w' hp => hpeak pre r w' (hpre pre hp)) (fun pre hp => hnub pre (hpre pre hp))
      (fun pre r w' hp => hcnt pre r w' (hpre pre hp))
    have h2 := hnub _ (List.prefix_refl _)
    rw [hsnoc, seqPlay_bind] at h2 ⊢
    rw [seqPlay_bind, M.bind_apply (seqPlay (t.denote sys) b _), ← h1, M.bind_apply, M.bind_apply, M.bind_apply]
    rw [M.bind_apply] at h1 h2
    cases e : seqPlay (ration sys t q) b (T ops) w with
    | ok r w' =>
      rw [e] at h1 h2
      have h3 := hpeak ops _ w' (List.prefix_append _ _) h1.symm
      have h4 := hcnt ops r w' (List.prefix_append _ _) e
      replace h3 : size r.2 + 1 ≤ q := h3
      have := hstep r.2 o r.1 w' (by omega) h2
      unfold Unnoticed at this
      rw [M.bind_apply] at this
      exact this
    | oom w' => rfl
    | ub => rfl

/-- The bound, for any kind of program. -/
theorem steps_footprint {O X : Type} (hwf : t.WF) (b : Nat) (w : World) (hs : Storage w b t.size) (T : List O → Prog X) (step : X → O → Prog X)
    (h0 : ∃ x, T [] = pure x) (hsnoc : ∀ ops o, T (ops ++ [o]) = T ops >>= fun x => step x o)
    (hstep : ∀ x o (s : (ration sys t q).St) w1, s.2 + 1 ≤ q → (step x o).seq (ration sys t q) s w1 ≠ .ub → Unnoticed sys t q (step x o) s w1)
    (size : X → Nat) (P : X → List (Nat × List UInt8) → Prop) (hP : ∀ x R, P x R → R.length ≤ size x)
    (ops : List O) (hspec : ∀ pre, pre <+: ops → Rationed sys t hwf q b P (T pre))
    (hpeak : ∀ pre r w', pre <+: ops → seqPlay (t.denote sys) b (T pre) w = .ok r w' → size r.2 + 1 ≤ q)
    (r : (t.denote sys).St × X) (w' : World) (hrun : seqPlay (t.denote sys) b (T ops) w = .ok r w') (m : Nat)
    (hm : ∀ R, P r.2 R → ∀ c ∈ R, c.2.length ≤ m) :
    AtMost (t.holds q) (t.largest m) fun a n => w'.heap.t a = some n ∧ w.heap.t a ≠ some n := by
  rw [← steps_unnoticed hwf b w hs T step h0 hsnoc hstep size P hP ops hspec hpeak] at hrun
  obtain ⟨r0, w0, e0, e1⟩ := bind_ok hrun
  cases e1
  obtain ⟨g0, hf, hd, he, hb, _, hft⟩ := storage_split hs
  have := hspec ops (List.prefix_refl _) w g0 hf hd he hb
  rw [e0] at this
  obtain ⟨⟨x, _, he', R, hR, h1, h2, _, rfl, ⟨⟨_, hq, ht, _⟩, hI⟩, hB⟩, _⟩ := this
  obtain ⟨l, hl1, hl2⟩ := t.tight_few sys q hwf b r0.1.1 _ h1 hI ht hq m (by
    intro x hx
    obtain ⟨y, hy, rfl⟩ := List.mem_map.1 hx
    exact hm R hR y hy)
  refine ⟨l, hl1, fun a n ⟨k1, k2⟩ => ?_⟩
  rw [he', Heap.add_t] at k1
  rcases Option.or_eq_some_iff.1 k1 with k1 | ⟨_, k1⟩
  · rw [Heap.add_t] at k1
    rcases Option.or_eq_some_iff.1 k1 with k1 | ⟨_, k1⟩
    · exact hl2 a n k1
    · rw [blocksV_none hB a] at k1; cases k1
  · rw [hft] at k1
    exact absurd k1 k2

end

/-! ### Vectors -/

/-- the blocks of vectors -/
def VBlocks (sz : Nat) (vs : List Vec) (R : List (Nat × List UInt8)) : Prop :=
  R.length ≤ vs.length ∧ ∀ c ∈ R, ∃ v ∈ vs, c.2.length = v.capacity sz * sz

theorem flatMap_length_le {α β : Type} (f : α → List β) (l : List α) (h : ∀ a ∈ l, (f a).length ≤ 1) : (l.flatMap f).length ≤ l.length := by
  induction l with
  | nil => simp
  | cons a l ih =>
    have h1 := ih fun b hb => h b (List.mem_cons_of_mem _ hb)
    have h2 := h a (by simp)
    simp only [List.flatMap_cons, List.length_append, List.length_cons]
    omega

theorem vinv_blocks {A : Allocator} {fA : Nat → Prop} {hA : Sound A fA} {b sz T : Nat} (hz : 0 < sz) {c : Vecs A} {S : Seqs} {x : Heap}
    (h : VInv hA b sz T c S x) : ∃ R, VBlocks sz c.vs R ∧ Pool hA b c.st R x := by
  obtain ⟨Γ, h1, _, _, h4, h5⟩ := h
  refine ⟨_, ⟨?_, fun y hy => ?_⟩, h5⟩
  · rw [h1, List.length_map]
    refine flatMap_length_le _ _ fun g _ => ?_
    unfold Ghost.own Vec.own
    split <;> simp
  · obtain ⟨g, hg, hy⟩ := List.mem_flatMap.1 hy
    have hr := (h4 g hg).rep
    refine ⟨g.v, by rw [h1]; exact List.mem_map_of_mem hg, ?_⟩
    unfold Ghost.own Vec.own at hy
    split at hy
    · cases hy
    · rw [List.mem_singleton.1 hy, hr.capacity_eq hz]
      exact hr.len

theorem Prog.bind_assoc' {α β γ : Type} (x : Prog α) (f : α → Prog β) (g : β → Prog γ) : x >>= f >>= g = x >>= fun a => f a >>= g := by
  show (x.bind f).bind g = x.bind fun a => (f a).bind g
  induction x with
  | ret a => rfl
  | stop => rfl
  | ub => rfl
  | load p k ih => exact congrArg (Prog.load p) (funext fun v => ih v)
  | store p v k ih => exact congrArg (Prog.store p v) ih
  | alloc n k ih => exact congrArg (Prog.alloc n) (funext fun v => ih v)
  | dealloc p n k ih => exact congrArg (Prog.dealloc p n) ih

theorem Prog.bind_pure' {α : Type} (x : Prog α) : x >>= pure = x := by
  show x.bind .ret = x
  induction x with
  | ret a => rfl
  | stop => rfl
  | ub => rfl
  | load p k ih => exact congrArg (Prog.load p) (funext fun v => ih v)
  | store p v k ih => exact congrArg (Prog.store p v) ih
  | alloc n k ih => exact congrArg (Prog.alloc n) (funext fun v => ih v)
  | dealloc p n k ih => exact congrArg (Prog.dealloc p n) ih

theorem TVecs.run_snoc (sz : Nat) (c : TVecs) (ops : List VOp) (o : VOp) : c.run sz (ops ++ [o]) = c.run sz ops >>= fun x => x.step sz o := by
  induction ops generalizing c with
  | nil => exact Prog.bind_pure' _
  | cons a ops ih =>
    show (c.step sz a >>= fun c' => c'.run sz (ops ++ [o])) = (c.step sz a >>= fun c' => c'.run sz ops) >>= _
    rw [Prog.bind_assoc']
    exact congrArg _ (funext fun c' => ih c')

theorem TVecs.seqPlay_run (A : Allocator) (b sz : Nat) (ops : List VOp) :
    seqPlay A b (TVecs.run sz ⟨[], []⟩ ops) = vplay sz A b ops >>= fun c => pure (c.st, ⟨c.vs, c.seen⟩) := by
  unfold seqPlay vplay
  simp only [TVecs.seq_run, bind_assoc]

theorem weights_prefix {pre ops : List VOp} (h : pre <+: ops) : weights pre ≤ weights ops := by
  obtain ⟨post, rfl⟩ := h
  induction pre with
  | nil => exact Nat.zero_le _
  | cons a pre ih => exact Nat.add_le_add_left ih _

/-- **C102, vectors.** However long a program with vectors runs: if at most `k` vectors exist at the same time, each now with a
capacity of at most `m` bytes, the process has from `malloc` what it had before, and at most `holds (k + 1)` blocks of at most
`largest m` bytes: the allocator's share of `k + 1` blocks in use (a vector that grows has two for a moment). The number of
operations does not matter. -/
theorem C102_vectors (sys : Sys) (t : AllocTy) (hwf : t.WF) (b : Nat) (w : World) (hs : Storage w b t.size) (sz : Nat) (hz : 0 < sz)
    (ops : List VOp) (hops : VSane t sz ops) (hth : ∀ n, (Job.vectors sz ops).requests n → t.Thrifty n) (k : Nat)
    (hpeak : ∀ pre c w', pre <+: ops → vplay sz (t.denote sys) b pre w = .ok c w' → c.vs.length ≤ k)
    (c : Vecs (t.denote sys)) (w' : World) (hrun : vplay sz (t.denote sys) b ops w = .ok c w') (m : Nat)
    (hm : ∀ v ∈ c.vs, v.capacity sz * sz ≤ m) :
    AtMost (t.holds (k + 1)) (t.largest m) fun a n => w'.heap.t a = some n ∧ w.heap.t a ≠ some n := by
  have hfit := hops.fits hwf hz sys.plat
  refine steps_footprint (q := k + 1) hwf b w hs (TVecs.run sz ⟨[], []⟩) (fun x o => x.step sz o) ⟨_, rfl⟩ (TVecs.run_snoc sz _)
    (fun x o s w1 h hu => Unnoticed.asks (Prog.Asks.vstep (m := 0) sz x o) h hu) (fun x => x.vs.length) (fun x R => VBlocks sz x.vs R)
    (fun _ _ h => h.1) ops (fun pre hp => ?_) (fun pre r w1 hp e => ?_) (c.st, ⟨c.vs, c.seen⟩) w' ?_ m fun R hR y hy => ?_
  · unfold Rationed
    rw [TVecs.seqPlay_run]
    have hW := weights_prefix hp
    refine Triple.bind ((vplay_spec (ration_sound sys t hwf (k + 1)) b sz hz pre (fun n h1 h2 => ?_) (fun ⟨o, ho, he⟩ => ?_) hs.1 hs.2.1
      (by show b + (t.book sys).objSize < _; rw [t.book_size]; exact hs.2.2.1)).pre fun x hx => ?_) fun c => ?_
    · have h3 := hfit.1 n h1 (by omega)
      have h4 : sz * n ≤ sz * (2 * weights ops) := Nat.mul_le_mul_left _ (by omega)
      have h5 := hops.1
      exact ⟨h3.1, h3.2, by omega, hth _ (.inl ⟨n, h1, by omega, rfl⟩)⟩
    · have h0 : ∃ o ∈ ops, o.mayBeEmpty = true := ⟨o, hp.subset ho, he⟩
      exact ⟨hfit.2 h0, by have := hops.1; omega, hth 0 (.inr ⟨rfl, h0⟩)⟩
    · show bytes b (t.book sys).objSize x
      rw [t.book_size]; exact hx
    · refine Triple.pure _ fun x hx => ?_
      obtain ⟨S, _, hx⟩ := hx
      exact vinv_blocks hz hx
  · rw [TVecs.seqPlay_run] at e
    obtain ⟨c', w2, e1, e2⟩ := bind_ok e
    cases e2
    exact Nat.succ_le_succ (hpeak pre c' _ hp e1)
  · rw [TVecs.seqPlay_run, bind_of_ok hrun]
    rfl
  · obtain ⟨v, hv, e⟩ := hR.2 y hy
    rw [e]
    exact hm v hv

/-- How many vectors exist at most after the operation, if there are at most `n` before it. -/
def VOp.count (n : Nat) : VOp → Nat
  | .new | .newSize _ | .newFill _ _ | .newRange _ | .copy _ | .move _ => n + 1
  | .destroy i => if i < n then n - 1 else n
  | _ => n

/-- The same for a program. -/
def vcountFrom (n : Nat) (ops : List VOp) : Nat := ops.foldl VOp.count n

/-- How many vectors exist at most at any time while the program runs. Read off the program. -/
def vpeakFrom (n : Nat) : List VOp → Nat
  | [] => n
  | o :: os => max n (vpeakFrom (o.count n) os)

theorem Seqs.Step.count {sz : Nat} {S S' : Seqs} {o : VOp} {n : Nat} (h : S.Step sz o S') (hn : S.xs.length ≤ n) : S'.xs.length ≤ o.count n := by
  cases o <;> simp only [Seqs.Step] at h <;> simp only [VOp.count]
  case newSize => obtain ⟨us, _, _, rfl⟩ := h; simpa using hn
  case destroy i =>
    subst h
    simp only [List.length_eraseIdx]
    split <;> split <;> omega
  case resize =>
    split at h
    · obtain ⟨us, _, _, rfl⟩ := h; simpa using hn
    · subst h; exact hn
  all_goals
    (repeat' split at h) <;> subst h <;>
      (try simp only [List.length_append, List.length_set, List.length_cons, List.length_nil]) <;> omega

theorem Seqs.Run.count {sz : Nat} {S S' : Seqs} {ops : List VOp} {n : Nat} (h : Seqs.Run sz S ops S') (hn : S.xs.length ≤ n) :
    S'.xs.length ≤ vcountFrom n ops := by
  induction h generalizing n with
  | nil => exact hn
  | cons h _ ih => exact ih (h.count hn)

theorem le_vpeakFrom (n : Nat) (ops : List VOp) : n ≤ vpeakFrom n ops := by
  cases ops with
  | nil => exact Nat.le_refl _
  | cons o os => exact Nat.le_max_left _ _

theorem vcount_le_peak (n : Nat) (pre post : List VOp) : vcountFrom n pre ≤ vpeakFrom n (pre ++ post) := by
  induction pre generalizing n with
  | nil => exact le_vpeakFrom n _
  | cons o pre ih => exact Nat.le_trans (ih _) (Nat.le_max_right _ _)

theorem vplay_count (sys : Sys) (t : AllocTy) (hwf : t.WF) (b : Nat) (w : World) (hs : Storage w b t.size) (sz : Nat) (hz : 0 < sz)
    (ops : List VOp) (hops : VSane t sz ops) (pre : List VOp) (hp : pre <+: ops) (c : Vecs (t.denote sys)) (w' : World)
    (e : vplay sz (t.denote sys) b pre w = .ok c w') : c.vs.length ≤ vcountFrom 0 pre := by
  have hW := weights_prefix hp
  have hfit := hops.fits hwf hz sys.plat
  have := vector_is_seq_of (t.sound sys hwf) b w (by rw [t.objSize_eq]; exact hs) sz hz pre
    ⟨fun n h1 h2 => hfit.1 n h1 (by omega), fun ⟨o, ho, he⟩ => hfit.2 ⟨o, hp.subset ho, he⟩⟩
  rw [e] at this
  obtain ⟨S, hrun, _, hl, _⟩ := this
  rw [hl]
  exact hrun.count (Nat.zero_le _)

theorem vpeakFrom_append (n : Nat) (a b : List VOp) : vpeakFrom n (a ++ b) = max (vpeakFrom n a) (vpeakFrom (vcountFrom n a) b) := by
  induction a generalizing n with
  | nil => exact (Nat.max_eq_right (le_vpeakFrom n b)).symm
  | cons o a ih =>
    show max n (vpeakFrom _ (a ++ b)) = max (max n (vpeakFrom _ a)) _
    rw [ih, Nat.max_assoc]
    rfl

theorem vrounds_count (body : List VOp) (h : vcountFrom 0 body = 0) (k : Nat) : vcountFrom 0 (List.replicate k body).flatten = 0 := by
  induction k with
  | zero => rfl
  | succ k ih =>
    rw [List.replicate_succ, List.flatten_cons]
    unfold vcountFrom at h ih ⊢
    rw [List.foldl_append, h, ih]

theorem vrounds_peak (body : List VOp) (h : vcountFrom 0 body = 0) (k : Nat) : vpeakFrom 0 (List.replicate k body).flatten ≤ vpeakFrom 0 body := by
  induction k with
  | zero => exact Nat.zero_le _
  | succ k ih =>
    rw [List.replicate_succ, List.flatten_cons, vpeakFrom_append, h]
    exact Nat.max_le.2 ⟨Nat.le_refl _, ih⟩

/-- **C102, loops with vectors.** A program that repeats the same work with vectors, destroying in each round those of that round,
holds after any number of rounds at most `holds (p + 1)` blocks from `malloc`, where `p` is the number of vectors that exist at
once during one round. -/
theorem C102_vectors_any_number_of_rounds (sys : Sys) (t : AllocTy) (hwf : t.WF) (b : Nat) (w : World) (hs : Storage w b t.size) (sz : Nat) (hz : 0 < sz)
    (body : List VOp) (hback : vcountFrom 0 body = 0) (k : Nat) (hops : VSane t sz (List.replicate k body).flatten)
    (hth : ∀ n, (Job.vectors sz (List.replicate k body).flatten).requests n → t.Thrifty n)
    (c : Vecs (t.denote sys)) (w' : World) (hrun : vplay sz (t.denote sys) b (List.replicate k body).flatten w = .ok c w') :
    c.vs = [] ∧ AtMost (t.holds (vpeakFrom 0 body + 1)) (t.largest 0) fun a n => w'.heap.t a = some n ∧ w.heap.t a ≠ some n := by
  have hcnt := vplay_count sys t hwf b w hs sz hz _ hops
  have hnil : c.vs = [] := by
    have := hcnt _ (List.prefix_refl _) c w' hrun
    rw [vrounds_count body hback] at this
    exact List.length_eq_zero_iff.1 (Nat.le_zero.1 this)
  refine ⟨hnil, C102_vectors sys t hwf b w hs sz hz _ hops hth _ (fun pre c w' hp e => ?_) c w' hrun 0 (by rw [hnil]; simp)⟩
  refine Nat.le_trans (hcnt pre hp c w' e) ?_
  obtain ⟨post, hp⟩ := hp
  refine Nat.le_trans (vcount_le_peak 0 pre post) ?_
  rw [hp]
  exact vrounds_peak body hback k

/-! ### Arrays -/

theorem TArrs.run_snoc (sz : Nat) (c : TArrs) (ops : List ArrOp) (o : ArrOp) : c.run sz (ops ++ [o]) = c.run sz ops >>= fun x => x.step sz o := by
  induction ops generalizing c with
  | nil => exact Prog.bind_pure' _
  | cons a ops ih =>
    show (c.step sz a >>= fun c' => c'.run sz (ops ++ [o])) = (c.step sz a >>= fun c' => c'.run sz ops) >>= _
    rw [Prog.bind_assoc']
    exact congrArg _ (funext fun c' => ih c')

theorem TArrs.seqPlay_run (A : Allocator) (b sz : Nat) (ops : List ArrOp) :
    seqPlay A b (TArrs.run sz ⟨[], []⟩ ops) = aplay sz A b ops >>= fun c => pure (c.st, ⟨c.vs, c.seen⟩) := by
  unfold seqPlay aplay
  simp only [TArrs.seq_run, bind_assoc]

theorem aweights_prefix {pre ops : List ArrOp} (h : pre <+: ops) : aweights pre ≤ aweights ops := by
  obtain ⟨post, rfl⟩ := h
  induction pre with
  | nil => exact Nat.zero_le _
  | cons a pre ih => exact Nat.add_le_add_left ih _

/-- **C102, arrays.** The same for programs with arrays: at most `k` of them at the same time, each now of at most `m` bytes. -/
theorem C102_arrays (sys : Sys) (t : AllocTy) (hwf : t.WF) (b : Nat) (w : World) (hs : Storage w b t.size) (sz : Nat) (hz : 0 < sz)
    (ops : List ArrOp) (hops : ASane t sz ops) (hth : ∀ n, (Job.arrays sz ops).requests n → t.Thrifty n) (k : Nat)
    (hpeak : ∀ pre c w', pre <+: ops → aplay sz (t.denote sys) b pre w = .ok c w' → c.vs.length ≤ k)
    (c : Arrs (t.denote sys)) (w' : World) (hrun : aplay sz (t.denote sys) b ops w = .ok c w') (m : Nat)
    (hm : ∀ v ∈ c.vs, v.size sz * sz ≤ m) :
    AtMost (t.holds (k + 1)) (t.largest m) fun a n => w'.heap.t a = some n ∧ w.heap.t a ≠ some n := by
  have hfit := hops.fits hwf hz sys.plat
  refine steps_footprint (q := k + 1) hwf b w hs (TArrs.run sz ⟨[], []⟩) (fun x o => x.step sz o) ⟨_, rfl⟩ (TArrs.run_snoc sz _)
    (fun x o s w1 h hu => Unnoticed.asks (Prog.Asks.astep (m := 0) sz x o) h hu) (fun x => x.vs.length)
    (fun x R => VBlocks sz (x.vs.map Arr.vec) R)
    (fun _ _ h => by have := h.1; rwa [List.length_map] at this) ops (fun pre hp => ?_) (fun pre r w1 hp e => ?_) (c.st, ⟨c.vs, c.seen⟩) w' ?_ m
    fun R hR y hy => ?_
  · unfold Rationed
    rw [TArrs.seqPlay_run]
    have hW := aweights_prefix hp
    refine Triple.bind ((aplay_spec (ration_sound sys t hwf (k + 1)) b sz hz pre (fun n h1 h2 => ?_) (fun ⟨o, ho, he⟩ => ?_) hs.1 hs.2.1
      (by show b + (t.book sys).objSize < _; rw [t.book_size]; exact hs.2.2.1)).pre fun x hx => ?_) fun c => ?_
    · have h3 := hfit.1 n h1 (by omega)
      have h4 : sz * n ≤ sz * (2 * aweights ops) := Nat.mul_le_mul_left _ (by omega)
      have h5 := hops.1
      exact ⟨h3.1, h3.2, by omega, hth _ (.inl ⟨n, h1, by omega, rfl⟩)⟩
    · have h0 : ∃ o ∈ ops, o.mayBeEmpty = true := ⟨o, hp.subset ho, he⟩
      exact ⟨hfit.2 h0, by have := hops.1; omega, hth 0 (.inr ⟨rfl, h0⟩)⟩
    · show bytes b (t.book sys).objSize x
      rw [t.book_size]; exact hx
    · refine Triple.pure _ fun x hx => ?_
      obtain ⟨S, _, hx⟩ := hx
      exact vinv_blocks hz hx
  · rw [TArrs.seqPlay_run] at e
    obtain ⟨c', w2, e1, e2⟩ := bind_ok e
    cases e2
    exact Nat.succ_le_succ (hpeak pre c' _ hp e1)
  · rw [TArrs.seqPlay_run, bind_of_ok hrun]
    rfl
  · obtain ⟨v, hv, e⟩ := hR.2 y hy
    obtain ⟨a, ha, rfl⟩ := List.mem_map.1 hv
    rw [e]
    exact hm a ha

/-! ### Heaps -/

section
variable {α : Type}

theorem THeaps.run_snoc (E : Elt α) (comp eq : α → α → Bool) (c : THeaps α) (ops : List (BOp α)) (o : BOp α) :
    c.run E comp eq (ops ++ [o]) = c.run E comp eq ops >>= fun x => x.step E comp eq o := by
  induction ops generalizing c with
  | nil => exact Prog.bind_pure' _
  | cons a ops ih =>
    show (c.step E comp eq a >>= fun c' => c'.run E comp eq (ops ++ [o])) = (c.step E comp eq a >>= fun c' => c'.run E comp eq ops) >>= _
    rw [Prog.bind_assoc']
    exact congrArg _ (funext fun c' => ih c')

theorem THeaps.seqPlay_run (E : Elt α) (comp eq : α → α → Bool) (A : Allocator) (b : Nat) (ops : List (BOp α)) :
    seqPlay A b (THeaps.run E comp eq ⟨fun _ => none, [], []⟩ ops) = hplay E comp eq A b ops >>= fun c => pure (c.st, ⟨c.objs, c.hs, c.seen⟩) := by
  unfold seqPlay hplay
  simp only [THeaps.seq_run, bind_assoc]

theorem hweights_prefix {pre ops : List (BOp α)} (h : pre <+: ops) : hweights pre ≤ hweights ops := by
  obtain ⟨post, rfl⟩ := h
  rw [hweights_append]
  exact Nat.le_add_right _ _

theorem popsLast_prefix {pre ops : List (BOp α)} (h : pre <+: ops) {ns : List Nat} (hp : popsLast ns ops = false) : popsLast ns pre = false := by
  obtain ⟨post, rfl⟩ := h
  induction pre generalizing ns with
  | nil => rfl
  | cons a pre ih =>
    rw [List.cons_append] at hp
    simp only [popsLast, Bool.or_eq_false_iff] at hp ⊢
    exact ⟨hp.1, ih hp.2⟩

/-- a program that does not use the allocator -/
theorem untouched_below {β : Type} {sys : Sys} {t : AllocTy} {q : Nat} (T : Prog β) (s : (ration sys t q).St) :
    Below (unration sys t q) (T.seq (untouchable (ration sys t q)) s) (T.seq (t.denote sys) (t.unbook sys s.1)) := by
  induction T with
  | ret a => exact Below.pure _ _ _ rfl
  | stop => exact Below.rfl' rfl
  | ub => exact Below.ub
  | load p k ih => exact Below.bind (Below.refl _) fun v => ih v
  | store p v k ih => exact Below.bind (Below.refl _) fun _ => ih
  | alloc n k ih => exact Below.ub
  | dealloc p n k ih => exact Below.ub

theorem Unnoticed.ofList {sys : Sys} {t : AllocTy} {q : Nat} (E : Elt α) (comp : α → α → Bool) (o : Objs α) (vs : List α)
    (s : (ration sys t q).St) (hs : s.2 + 1 ≤ q) (w : World) (hub : (BHeap.ofListP E comp o vs).seq (ration sys t q) s w ≠ .ub) :
    Unnoticed sys t q (BHeap.ofListP E comp o vs) s w := by
  unfold BHeap.ofListP at hub ⊢
  rw [Prog.seq_bind, M.bind_apply] at hub
  refine Unnoticed.bind (Unnoticed.asks (Prog.Asks.hofCap (m := 0) E _) hs ?_) fun r w' e => ?_
  · intro e
    rw [e] at hub
    exact hub rfl
  · rw [e] at hub
    replace hub : (r.2.insertAllP E comp o vs).seq (ration sys t q) r.1 w' ≠ .ub := hub
    have hr : r.2.size = 0 ∧ r.2.cap = vs.length := by
      rw [BHeap.seq_ofCap] at e
      unfold BHeap.ofCap at e
      obtain ⟨x, w1, _, e2⟩ := bind_ok e
      cases e2
      exact ⟨rfl, rfl⟩
    have h1 := C68_no_allocation_within_capacity E comp (ration sys t q) r.1 o r.2 vs (by omega)
    have h2 : (r.2.insertAllP E comp o vs).seq (ration sys t q) r.1 = (r.2.insertAllP E comp o vs).seq (untouchable (ration sys t q)) r.1 := by
      exact ((BHeap.seq_insertAll ..).trans h1).trans (BHeap.seq_insertAll (A := untouchable (ration sys t q)) ..).symm
    unfold Unnoticed
    rw [h2] at hub ⊢
    exact (untouched_below _ r.1 w').resolve_left hub

theorem Unnoticed.hstep {sys : Sys} {t : AllocTy} {q : Nat} (E : Elt α) (comp eq : α → α → Bool) (c : THeaps α) (o : BOp α)
    (s : (ration sys t q).St) (hs : s.2 + 1 ≤ q) (w : World) (hub : (c.step E comp eq o).seq (ration sys t q) s w ≠ .ub) :
    Unnoticed sys t q (c.step E comp eq o) s w := by
  have h1 := Prog.Asks.hstep E comp eq c o
  cases o
  case newList vs =>
    simp only [THeaps.step] at hub ⊢
    rw [Prog.seq_bind, M.bind_apply] at hub
    refine Unnoticed.bind (Unnoticed.ofList E comp c.objs vs s hs w ?_) fun r w' _ => ?_
    · intro e
      rw [e] at hub
      exact hub rfl
    · rfl
  all_goals exact Unnoticed.asks h1 hs hub

/-- the blocks of heaps -/
def HBlocks (E : Elt α) (hs : List BHeap) (R : List (Nat × List UInt8)) : Prop :=
  R.length ≤ hs.length ∧ ∀ c ∈ R, ∃ h ∈ hs, c.2.length = h.cap * E.size

theorem Elt.Match.len {E : Elt α} {Γ : List (Nat × Slots α)} {R : List (Nat × List UInt8)} (hm : E.Match Γ R) :
    R.length = Γ.length ∧ ∀ c ∈ R, ∃ g ∈ Γ, c.2.length = g.2.length * E.size := by
  induction hm with
  | nil => simp
  | @cons p sl bs Γ R h1 h2 ih =>
    refine ⟨by simp [ih.1], fun c hc => ?_⟩
    rcases List.mem_cons.1 hc with rfl | hc
    · exact ⟨_, List.mem_cons_self .., h1.len⟩
    · obtain ⟨g, hg, e⟩ := ih.2 c hc
      exact ⟨g, List.mem_cons_of_mem _ hg, e⟩

theorem hinv_blocks {A : Allocator} {fA : Nat → Prop} {hA : Sound A fA} {b T : Nat} {E : Elt α} {comp : α → α → Bool} {ns : List Nat} {c : BHeaps A α}
    {S : Bags α} {x : Heap} (h : HInv hA b E comp T ns c S x) : ∃ R, HBlocks E c.hs R ∧ Pool hA b c.st R x := by
  obtain ⟨Γ, h1, _, _, _, h5, R, hM, _, _, hpool⟩ := h
  refine ⟨R, ⟨?_, fun y hy => ?_⟩, hpool⟩
  · rw [h1, List.length_map, hM.len.1]
    refine flatMap_length_le _ _ fun g _ => ?_
    unfold HGhost.own
    split <;> simp
  · obtain ⟨z, hz, e⟩ := hM.len.2 y hy
    obtain ⟨g, hg, hy⟩ := List.mem_flatMap.1 hz
    have hok := (h5 g hg).ok
    refine ⟨g.h, by rw [h1]; exact List.mem_map_of_mem hg, ?_⟩
    unfold HGhost.own at hy
    split at hy
    · cases hy
    · rw [e, List.mem_singleton.1 hy, hok.cap]
      simp [live]

/-- **C102, heaps.** The same for programs with binary heaps: at most `k` of them at the same time, each now with a capacity of at
most `m` bytes. -/
theorem C102_heaps (sys : Sys) (t : AllocTy) (hwf : t.WF) (b : Nat) (w : World) (hs : Storage w b t.size) (E : Elt α) (hE : E.Ok)
    (comp eq : α → α → Bool) (ops : List (BOp α)) (hops : HSane t E ops) (hpop : E.trivial = true ∨ popsLast [] ops = false)
    (hth : ∀ n, (Job.heaps E comp eq ops).requests n → t.Thrifty n) (k : Nat)
    (hpeak : ∀ pre c w', pre <+: ops → hplay E comp eq (t.denote sys) b pre w = .ok c w' → c.hs.length ≤ k)
    (c : BHeaps (t.denote sys) α) (w' : World) (hrun : hplay E comp eq (t.denote sys) b ops w = .ok c w') (m : Nat)
    (hm : ∀ h ∈ c.hs, h.cap * E.size ≤ m) :
    AtMost (t.holds (k + 1)) (t.largest m) fun a n => w'.heap.t a = some n ∧ w.heap.t a ≠ some n := by
  have hfit := hops.fits hwf hE sys.plat
  refine steps_footprint (q := k + 1) hwf b w hs (THeaps.run E comp eq ⟨fun _ => none, [], []⟩) (fun x o => x.step E comp eq o) ⟨_, rfl⟩
    (THeaps.run_snoc E comp eq _)
    (fun x o s w1 h hu => Unnoticed.hstep E comp eq x o s h w1 hu) (fun x => x.hs.length) (fun x R => HBlocks E x.hs R)
    (fun _ _ h => h.1) ops (fun pre hp => ?_) (fun pre r w1 hp e => ?_) (c.st, ⟨c.objs, c.hs, c.seen⟩) w' ?_ m fun R hR y hy => ?_
  · unfold Rationed
    rw [THeaps.seqPlay_run]
    have hW := hweights_prefix hp
    refine Triple.bind ((hplay_spec (ration_sound sys t hwf (k + 1)) b hE comp eq pre (fun n h1 h2 => ?_) (fun ⟨o, ho, he⟩ => ?_)
      (hpop.imp id (popsLast_prefix hp)) hs.1 hs.2.1
      (by show b + (t.book sys).objSize < _; rw [t.book_size]; exact hs.2.2.1)).pre fun x hx => ?_) fun c => ?_
    · have h3 := hfit.1 n h1 (by omega)
      have h4 : E.size * n ≤ E.size * (2 * hweights ops) := Nat.mul_le_mul_left _ (by omega)
      have h5 := hops.1
      exact ⟨h3.1, h3.2, by omega, hth _ (.inl ⟨n, h1, by omega, rfl⟩)⟩
    · have h0 : ∃ o ∈ ops, o.mayBeEmpty = true := ⟨o, hp.subset ho, he⟩
      exact ⟨hfit.2 h0, by have := hops.1; omega, hth 0 (.inr ⟨rfl, h0⟩)⟩
    · show bytes b (t.book sys).objSize x
      rw [t.book_size]; exact hx
    · refine Triple.pure _ fun x hx => ?_
      obtain ⟨S, _, ns, hx⟩ := hx
      exact hinv_blocks hx
  · rw [THeaps.seqPlay_run] at e
    obtain ⟨c', w2, e1, e2⟩ := bind_ok e
    cases e2
    exact Nat.succ_le_succ (hpeak pre c' _ hp e1)
  · rw [THeaps.seqPlay_run, bind_of_ok hrun]
    rfl
  · obtain ⟨v, hv, e⟩ := hR.2 y hy
    rw [e]
    exact hm v hv

end

/-! Non-trivial cases. -/

/-- recycled blocks of up to 64 bytes, behind a mutex -/
def rackTy : AllocTy := .threaded (.freelist 0 64 .mallocator)

theorem rackTy_thrifty (n : Nat) : rackTy.Thrifty n := by
  show (AllocTy.freelist 0 64 .mallocator).Thrifty n
  unfold AllocTy.Thrifty
  simp [AllocTy.Thrifty]

def rackBody : List VOp :=
  [.newSize 3, .write 0 1 [1, 2, 3, 4, 5, 6, 7, 8], .copy 0, .push 1 [8, 7, 6, 5, 4, 3, 2, 1], .move 0, .destroy 0, .pushRange 0 [[0, 0, 0, 0, 0, 0, 0, 1]],
    .read 0 3, .destroy 0, .destroy 0]

def rackArrs : List ArrOp := [.newSize 3, .copy 0, .resize 1 5, .destroy 0, .copy 0, .destroy 0]

def rackHeaps : List (BOp UInt8) := [.newList [5, 3, 9], .copy 0, .insert 1 4, .pop 0, .destroy 0, .newList [7], .destroy 0]

example : rackTy.WF ∧ Storage (demoWorld rackTy.size) 4096 rackTy.size := ⟨by decide, demoStorage _ (by decide)⟩

example (k : Nat) (hk : k ≤ 1000000) : VSane rackTy 8 (List.replicate k rackBody).flatten ∧ vcountFrom 0 rackBody = 0 ∧ vpeakFrom 0 rackBody = 3 ∧
    rackTy.holds 4 = 4 := by
  refine ⟨⟨?_, fun _ => rfl⟩, by decide, by decide, by decide⟩
  have : weights (List.replicate k rackBody).flatten = k * 5 := by
    clear hk
    induction k with
    | zero => rfl
    | succ k ih =>
      rw [List.replicate_succ, List.flatten_cons]
      show 3 + (0 + (0 + (1 + (0 + (0 + (1 + (0 + (0 + (0 + weights (List.replicate k rackBody).flatten))))))))) = _
      omega
  rw [this]
  have : rackTy.margin < 1000 := by decide
  omega

/-- three rounds: three blocks are in the list of the freelist, and nothing else is left of them -/
example : (vplay 8 (rackTy.denote (demoSys .direct)) 4096 (List.replicate 3 rackBody).flatten (demoWorld rackTy.size)).test (fun c w' => c.vs.isEmpty &&
      ((List.range 100).filter fun k => (w'.heap.t (0x100000 + k * 0x10000)).isSome).length == 3) = true := by decide +kernel

/-- what every prefix of the program satisfies (helper for the examples) -/
def everyPrefix {O X : Type} (f : List O → Res X) (ok : X → Bool) (ops : List O) : Bool :=
  (List.range (ops.length + 1)).all fun i => (f (ops.take i)).test fun x _ => ok x

theorem everyPrefix_holds {O X : Type} {f : List O → Res X} {ok : X → Bool} {ops : List O} (h : everyPrefix f ok ops = true) :
    ∀ pre x w', pre <+: ops → f pre = .ok x w' → ok x = true := by
  intro pre x w' hp e
  have := List.all_eq_true.1 h pre.length (by rw [List.mem_range]; have := hp.length_le; omega)
  rw [← List.prefix_iff_eq_take.1 hp, e] at this
  exact this

example : VSane rackTy 8 rackBody ∧ (∀ n, (Job.vectors 8 rackBody).requests n → rackTy.Thrifty n) ∧
    ∀ pre c w', pre <+: rackBody → vplay 8 (rackTy.denote (demoSys .direct)) 4096 pre (demoWorld rackTy.size) = .ok c w' → c.vs.length ≤ 3 :=
  ⟨⟨by decide, fun _ => rfl⟩, fun n _ => rackTy_thrifty n, fun pre c w' hp e => of_decide_eq_true
    (everyPrefix_holds (f := fun p => vplay 8 (rackTy.denote (demoSys .direct)) 4096 p (demoWorld rackTy.size)) (ok := fun c => decide (c.vs.length ≤ 3))
      (by decide +kernel) pre c w' hp e)⟩

example : ASane rackTy 8 rackArrs ∧ (∀ n, (Job.arrays 8 rackArrs).requests n → rackTy.Thrifty n) ∧
    ∀ pre c w', pre <+: rackArrs → aplay 8 (rackTy.denote (demoSys .direct)) 4096 pre (demoWorld rackTy.size) = .ok c w' → c.vs.length ≤ 2 :=
  ⟨⟨by decide, fun _ => rfl⟩, fun n _ => rackTy_thrifty n, fun pre c w' hp e => of_decide_eq_true
    (everyPrefix_holds (f := fun p => aplay 8 (rackTy.denote (demoSys .direct)) 4096 p (demoWorld rackTy.size)) (ok := fun c => decide (c.vs.length ≤ 2))
      (by decide +kernel) pre c w' hp e)⟩

example : HSane rackTy demoElt rackHeaps ∧ popsLast [] rackHeaps = false ∧
    (∀ n, (Job.heaps demoElt demoLess (fun a b => a == b) rackHeaps).requests n → rackTy.Thrifty n) ∧
    ∀ pre c w', pre <+: rackHeaps → hplay demoElt demoLess (fun a b => a == b) (rackTy.denote (demoSys .direct)) 4096 pre (demoWorld rackTy.size) = .ok c w' →
      c.hs.length ≤ 2 := by
  have key : everyPrefix (fun p => hplay demoElt demoLess (fun a b => a == b) (rackTy.denote (demoSys .direct)) 4096 p (demoWorld rackTy.size))
      (fun c => decide (c.hs.length ≤ 2)) rackHeaps = true := by decide +kernel
  exact ⟨⟨by decide, fun _ => rfl⟩, by decide, fun n _ => rackTy_thrifty n, fun pre c w' hp e => of_decide_eq_true
    (everyPrefix_holds key pre c w' hp e)⟩

end KTL
