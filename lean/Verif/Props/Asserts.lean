import Verif.Alloc.Debug
import Verif.Props.Instances
import Verif.Spec.Demo

/- C75: in a build with `KTL_DEBUG_ASSERT` no assertion fails in a program that follows the rules. -/
namespace KTL
open Cascading

/-! ### Specification -/

/-- A request of `n` bytes makes no cascade inside `t` ask an instance for something that even a new instance
refuses although `max_size()` does not exclude it. -/
def AllocTy.calm : AllocTy → Nat → Prop
  | null, _ => True
  | mallocator, _ => True
  | linear _, _ => True
  | stack _, _ => True
  | freelist m M A, n => m < n ∧ n ≤ M → A.calm M
  | fallback P F, n => P.calm n ∧ F.calm n
  | segragator T P F, n => if n ≤ T then P.calm n else F.calm n
  | cascading A, n => ¬ A.Hopeless n ∧ A.calm n
  | overflow A, n => A.calm (n + 128)
  | threaded A, n => A.calm n
  | shared A, n => A.calm n
  | reference A, n => A.calm n

/-- `detail::has_construct_v` and `detail::has_destroy_v`. -/
def AllocTy.hasConstruct : AllocTy → Bool
  | null => false
  | mallocator => false
  | linear _ => false
  | stack _ => false
  | freelist _ _ A => A.hasConstruct
  | fallback P F => P.hasConstruct || F.hasConstruct
  | segragator _ P F => P.hasConstruct || F.hasConstruct
  | cascading A => A.hasConstruct
  | overflow _ => true
  | threaded A => A.hasConstruct
  | shared A => A.hasConstruct
  | reference A => A.hasConstruct

/-- A call of `construct` or `destroy` compiles: `segragator` calls `owns` of its first part. -/
def AllocTy.routable : AllocTy → Bool
  | null => true
  | mallocator => true
  | linear _ => true
  | stack _ => true
  | freelist _ _ A => A.routable
  | fallback P F => P.routable && F.routable
  | segragator _ P F => (!(P.hasConstruct || F.hasConstruct) || P.hasOwns) && P.routable && F.routable
  | cascading A => A.routable
  | overflow A => A.routable
  | threaded A => A.routable
  | shared A => A.routable
  | reference A => A.routable

/-- The client of the build with assertions, seen as a client of the build without: the same fields. -/
def Client.released {sys : Sys} {t : AllocTy} (c : Client (t.debug sys)) : Client (t.denote sys) :=
  ⟨c.st, c.live, c.foreign, c.refused, c.built⟩

/-- Whenever the program calls `construct` or `destroy`, it is for a location inside one of its blocks. -/
def BuildsInside (sys : Sys) (A : Allocator) (b : Nat) (ops : List Op) (w : World) : Prop :=
  ∀ pre o post i off, ops = pre ++ o :: post → o = .construct i off ∨ o = .destroy i off →
    ∀ c w', play sys A b pre w = .ok c w' → ∀ x, c.live[i]? = some x → off < x.2.length

/-! ### Auxiliary facts about contracts -/

theorem Triple.withPost {α} {P : HProp} {c : M α} {Q : α → HProp} {R : α → Prop} (h : Triple P c Q) (hp : Post c R) :
    Triple P c (fun a h => R a ∧ Q a h) := by
  intro w g gf hd he hP
  have := h w g gf hd he hP
  cases hc : c w with
  | ok a w' =>
    rw [hc] at this
    obtain ⟨⟨h', h1, h2, h3⟩, h4⟩ := this
    exact ⟨⟨h', h1, h2, hp w a w' hc, h3⟩, h4⟩
  | oom w' => rw [hc] at this; exact this
  | ub => rw [hc] at this; exact this

/-- A contract with a further invariant `T` of the fields, for fewer request sizes. -/
def Sound.restrict {A : Allocator} {fA : Nat → Prop} (hA : Sound A fA) (T : A.St → Prop) (fC : Nat → Prop)
    (hf : ∀ n, fC n → fA n) (hinit : ∀ b, Post (A.init b) T)
    (halloc : ∀ b s L h n, hA.Inv b s L h → T s → fC n → Post (A.alloc s n) (fun r => T r.2))
    (hdealloc : ∀ s p n, T s → Post (A.dealloc s p n) T)
    (hcon : ∀ c, A.construct = some c → ∀ s p, T s → Post (c s p) T)
    (hdes : ∀ c, A.destroy = some c → ∀ s p, T s → Post (c s p) T) : Sound A fC where
  Inv b s L := fun h => (T s ∧ ∀ c ∈ L, fC c.2) ∧ hA.Inv b s L h
  objAlign := hA.objAlign
  perm := fun hp ⟨⟨h1, h2⟩, h3⟩ => ⟨⟨h1, fun c hc => h2 c (hp.mem_iff.2 hc)⟩, hA.perm hp h3⟩
  init_spec := fun b h1 h2 h3 =>
    ((hA.init_spec b h1 h2 h3).withPost (hinit b)).post fun s h ⟨g1, g2⟩ => ⟨⟨g1, by simp⟩, g2⟩
  alloc_spec := by
    intro b s L n hn hn2
    refine Triple.and (fun ⟨hT, hL⟩ => ?_)
    refine Triple.have (p := ∃ h, hA.Inv b s L h) (fun h hh => ⟨h, hh⟩) (fun ⟨h, hh⟩ => ?_)
    refine ((hA.alloc_spec b s L n (hf n hn) hn2).withPost (halloc b s L h n hh hT hn)).post ?_
    rintro r g ⟨hr, ⟨h1, h2⟩ | ⟨h1, h2⟩⟩
    · exact .inl ⟨h1, ⟨hr, hL⟩, h2⟩
    · refine .inr ⟨h1, star_mono_left (fun _ h => ⟨⟨hr, ?_⟩, h⟩) _ h2⟩
      intro c hc
      rcases List.mem_cons.1 hc with rfl | hc
      · exact hn
      · exact hL c hc
  dealloc_local := by
    intro b s p bs R k hk
    rw [star_and]
    refine apart_and (fun ⟨hT, hL⟩ => ?_)
    refine ((hA.dealloc_local b s p bs R k hk).withPost (hdealloc s p bs.length hT)).post ?_
    rintro s' h ⟨h1, h2⟩
    exact ⟨⟨h1, fun c hc => hL c (List.mem_cons_of_mem _ hc)⟩, h2⟩
  live_good := fun ⟨⟨_, h1⟩, h2⟩ hm => ⟨(hA.live_good h2 hm).1, h1 _ hm⟩
  live_max := fun f hf _ _ _ _ _ _ ⟨_, h⟩ hm => hA.live_max f hf h hm
  owns_sound := fun f hf _ _ _ _ _ ⟨_, h⟩ hx ho => hA.owns_sound f hf h hx ho
  owns_complete := fun f hf _ _ _ _ _ ⟨_, h⟩ hx => hA.owns_complete f hf h hx
  construct_spec := by
    intro c hc b s L p
    refine Triple.and (fun ⟨hT, hL⟩ => ?_)
    exact ((hA.construct_spec c hc b s L p).withPost (hcon c hc s p hT)).post fun s' h ⟨h1, h2⟩ => ⟨⟨h1, hL⟩, h2⟩
  destroy_spec := by
    intro c hc b s L p
    refine Triple.and (fun ⟨hT, hL⟩ => ?_)
    exact ((hA.destroy_spec c hc b s L p).withPost (hdes c hc s p hT)).post fun s' h ⟨h1, h2⟩ => ⟨⟨h1, hL⟩, h2⟩
  fini_spec := fun b s => Triple.and (fun _ => hA.fini_spec b s)

/-- The contract survives other `deallocate` and destructor that do the same wherever the contract allows the call. -/
def Sound.replace {A : Allocator} {fA : Nat → Prop} (hA : Sound A fA) (o : Freeing A.St)
    (hd : ∀ b s L h p n, hA.Inv b s L h → (p, n) ∈ L → o.dealloc s p n = A.dealloc s p n)
    (hf : ∀ b s h, hA.Inv b s [] h → o.fini s = A.fini s) : Sound (A.withFreeing o) fA where
  Inv := hA.Inv
  objAlign := hA.objAlign
  perm := hA.perm
  init_spec := hA.init_spec
  alloc_spec := hA.alloc_spec
  dealloc_local := by
    intro b s p bs R k hk
    refine Triple.have (p := ∃ h, hA.Inv b s ((p, bs.length) :: R.map blk) h) (fun h ⟨_, h1, _, _, _, hI, _⟩ => ⟨h1, hI⟩) (fun ⟨h, hI⟩ => ?_)
    show Triple _ (o.dealloc s p bs.length) _
    rw [hd b s _ h p bs.length hI (by simp)]
    exact hA.dealloc_local b s p bs R k hk
  live_good := hA.live_good
  live_max := hA.live_max
  owns_sound := hA.owns_sound
  owns_complete := hA.owns_complete
  construct_spec := hA.construct_spec
  destroy_spec := hA.destroy_spec
  fini_spec := by
    intro b s
    refine Triple.have (p := ∃ h, hA.Inv b s [] h) (fun h hh => ⟨h, hh⟩) (fun ⟨h, hI⟩ => ?_)
    show Triple _ (o.fini s) _
    rw [hf b s h hI]
    exact hA.fini_spec b s

theorem assert_true {α} {c : Bool} (h : c = true) (k : M α) : (M.assert c >>= fun _ => k) = k := by
  subst h; rfl

def Sound.notNull {A : Allocator} {fA : Nat → Prop} (hA : Sound A fA) : Sound (A.withFreeing A.notNull) fA :=
  hA.replace A.notNull
    (fun b s L h p n hI hm => assert_true (by simpa using (hA.live_good hI hm).1.1) _)
    (fun _ _ _ _ => rfl)

/-! ### Every composed allocator with assertions satisfies the contract -/

/-- Request sizes for which the contract is proved. -/
def AllocTy.dfits (plat : Plat) : AllocTy → Nat → Prop
  | null => fun _ => True
  | mallocator => MallocFits plat
  | linear S => Linear.Fits S
  | stack S => Linear.Fits S
  | freelist m M A => Freelist.Fits m M (A.dfits plat)
  | fallback P F => FallbackFits (P.dfits plat) (F.dfits plat)
  | segragator T P F => SegFits T (P.dfits plat) (F.dfits plat)
  | cascading A => fun n => Cascading.Fits (A.dfits plat) n ∧ ¬ A.Hopeless n ∧ n + A.margin < W64
  | overflow A => Overflow.Fits (A.dfits plat)
  | threaded A => A.dfits plat
  | shared A => A.dfits plat
  | reference A => A.dfits plat

theorem AllocTy.dfits_fits (plat : Plat) : ∀ (t : AllocTy) (n : Nat), t.dfits plat n → t.fits plat n
  | null, _, h => h
  | mallocator, _, h => h
  | linear _, _, h => h
  | stack _, _, h => h
  | freelist _ _ A, _, h => fun hn => dfits_fits plat A _ (h hn)
  | fallback P F, _, h => ⟨h.1, dfits_fits plat P _ h.2.1, dfits_fits plat F _ h.2.2⟩
  | segragator _ P F, _, h => ⟨fun hn => dfits_fits plat P _ (h.1 hn), fun hn => dfits_fits plat F _ (h.2 hn)⟩
  | cascading A, _, h => ⟨h.1.1, dfits_fits plat A _ h.1.2⟩
  | overflow A, _, h => ⟨h.1, dfits_fits plat A _ h.2⟩
  | threaded A, _, h => dfits_fits plat A _ h
  | shared A, _, h => dfits_fits plat A _ h
  | reference A, _, h => dfits_fits plat A _ h

theorem AllocTy.dfits_of_calm (plat : Plat) : ∀ (t : AllocTy) (_ : t.WF) (n : Nat), 0 < n → n + t.margin < W64 → t.calm n → t.dfits plat n
  | null, _, _, _, _, _ => trivial
  | mallocator, _, n, _, h, _ => fun _ => h
  | linear S, _, n, _, h, _ => by simp only [margin] at h; show n + 15 + S < W64; omega
  | stack S, _, n, _, h, _ => by simp only [margin] at h; show n + 15 + S < W64; omega
  | freelist m M A, hw, n, hn, h, hc => by
    intro hm
    simp only [margin] at h
    exact dfits_of_calm plat A hw.1 M (by have := hw.2.1; omega) (by omega) (hc hm)
  | fallback P F, hw, n, hn, h, hc => by
    simp only [margin] at h
    exact ⟨by omega, dfits_of_calm plat P hw.1 n hn (by omega) hc.1, dfits_of_calm plat F hw.2.1 n hn (by omega) hc.2⟩
  | segragator T P F, hw, n, hn, h, hc => by
    simp only [margin] at h
    simp only [calm] at hc
    refine ⟨fun hT => ?_, fun hT => ?_⟩
    · rw [if_pos hT] at hc
      exact dfits_of_calm plat P hw.1 n hn (by omega) hc
    · rw [if_neg (by omega)] at hc
      exact dfits_of_calm plat F hw.2 n hn (by omega) hc
  | cascading A, hw, n, hn, h, hc => ⟨⟨by omega, dfits_of_calm plat A hw.1 n hn h hc.2⟩, hc.1, h⟩
  | overflow A, hw, n, hn, h, hc => by
    simp only [margin] at h
    exact ⟨by omega, dfits_of_calm plat A hw (n + 128) (by omega) (by omega) hc⟩
  | threaded A, hw, n, hn, h, hc => dfits_of_calm plat A hw n hn h hc
  | shared A, hw, n, hn, h, hc => dfits_of_calm plat A hw.1 n hn h hc
  | reference A, hw, n, hn, h, hc => dfits_of_calm plat A hw n hn h hc

section mono

variable {A : Allocator} {o : Freeing A.St} {fA fD : Nat → Prop} {hD : Sound (A.withFreeing o) fD} {hA : Sound A fA}

theorem nodesInv_mono {plat : Plat} (hm : ∀ b s L h, hD.Inv b s L h → hA.Inv b s L h)
    (NL : List (Node A.St × List (Nat × Nat))) (h : Heap) (hN : nodesInv plat hD NL h) : nodesInv plat hA NL h := by
  induction NL generalizing h with
  | nil => exact hN
  | cons x NL ih =>
    obtain ⟨h1, h2, hd, rfl, ⟨h3, h4, hd', rfl, hI, hb⟩, hr⟩ := hN
    exact ⟨_, _, hd, rfl, ⟨_, _, hd', rfl, hm _ _ _ _ hI, hb⟩, ih _ hr⟩

theorem freelist_mono (m M : Nat) (hm : ∀ b s L h, hD.Inv b s L h → hA.Inv b s L h) (hf : ∀ n, fD n → fA n) (h8 hW)
    (b : Nat) (s : Freelist.St A.St) (L : List (Nat × Nat)) (h : Heap) (hI : (freelist_sound m M hD h8 hW).Inv b s L h) :
    (freelist_sound m M hA h8 hW).Inv b s L h := by
  obtain ⟨h1, R, h2, g1, g2, hd, rfl, hN, hb⟩ := hI
  exact ⟨fun c hc => ⟨(h1 c hc).1, (h1 c hc).2.1, fun hn => hf _ ((h1 c hc).2.2 hn)⟩, R, h2, g1, g2, hd, rfl, hm _ _ _ _ hN, hb⟩

theorem overflow_mono (hm : ∀ b s L h, hD.Inv b s L h → hA.Inv b s L h) (hf : ∀ n, fD n → fA n)
    (b : Nat) (s : Overflow.St A.St) (L : List (Nat × Nat)) (h : Heap) (hI : (overflow_sound hD).Inv b s L h) :
    (overflow_sound hA).Inv b s L h := by
  obtain ⟨h1, g1, g2, hd, rfl, hN, hb⟩ := hI
  exact ⟨fun c hc => ⟨(h1 c hc).1, (h1 c hc).2.1, (h1 c hc).2.2.1, hf _ (h1 c hc).2.2.2⟩, g1, g2, hd, rfl, hm _ _ _ _ hN, hb⟩

end mono

set_option smartUnfolding false in
/-- A cascade with assertions satisfies the contract for requests that are not hopeless. -/
def cascadingD_sound (sys : Sys) (A : AllocTy) (hwf : (AllocTy.cascading A).WF)
    (hD : Sound ((A.denote sys).withFreeing (A.freeing sys)) (A.dfits sys.plat))
    (hm : ∀ b s L h, hD.Inv b s L h → (A.sound sys hwf.1).Inv b s L h) :
    Sound (((AllocTy.cascading A).denote sys).withFreeing ((AllocTy.cascading A).freeing sys)) ((AllocTy.cascading A).dfits sys.plat) := by
  have ho : ((A.denote sys).withFreeing (A.freeing sys)).owns.isSome = true := by
    show (A.denote sys).owns.isSome = true
    rw [AllocTy.owns_isSome]; exact hwf.2.1
  have hx : MaxTotal ((A.denote sys).withFreeing (A.freeing sys)) := A.maxTotal sys hwf.2.2.1
  have hz : MallocFits sys.plat (nodeSize ((A.denote sys).withFreeing (A.freeing sys))) := fun _ => by
    have := hwf.2.2.2; show (A.denote sys).objSize + 16 + 16 < W64; simp only [AllocTy.objSize_eq]; omega
  let h0 := cascading_sound sys hD ho hx hz
  let h1 : Sound (cascading sys ((A.denote sys).withFreeing (A.freeing sys))) ((AllocTy.cascading A).dfits sys.plat) :=
    h0.restrict (fun s => idle (α := (A.denote sys).St) s = 0) _ (fun n hn => hn.1) (fun b => Post.pure rfl)
      (by
        intro b s L h n hI hT hn
        obtain ⟨_, NL, ⟨g1, g2, _⟩, k1, k2, _, _, hN, _⟩ := hI
        refine (alloc_idle sys A hwf s n 0 (Nat.le_of_eq hT) hn.2.2 ?_).mono (fun r hr => ?_)
        · intro nd rest e hc
          rw [← g1] at e
          cases NL with
          | nil => cases e
          | cons x NL =>
            have e' : x.1 = nd := (List.cons.inj e).1
            obtain ⟨h', hI⟩ := nodes_mem hN x (by simp)
            have := (g2 x (by simp)).1
            rw [e', hc] at this
            rw [e', List.length_eq_zero_iff.1 this.symm] at hI
            exact ⟨_, _, hm _ _ _ _ hI⟩
        · rw [if_neg hn.2.1] at hr
          exact Nat.le_zero.1 hr)
      (fun s p n hT => (dealloc_idle sys _ p n 0 s (Nat.le_of_eq hT)).mono fun _ h => Nat.le_zero.1 h)
      (by
        intro c hc s p hT
        obtain ⟨c', _, rfl⟩ := Option.map_eq_some_iff.1 hc
        exact (routeGo_idle _ c' .ctor p 0 s (Nat.le_of_eq hT)).mono fun _ h => Nat.le_zero.1 h)
      (by
        intro c hc s p hT
        obtain ⟨c', _, rfl⟩ := Option.map_eq_some_iff.1 hc
        exact (routeGo_idle _ c' .dtor p 0 s (Nat.le_of_eq hT)).mono fun _ h => Nat.le_zero.1 h)
  refine h1.replace ((AllocTy.cascading A).freeing sys) ?_ ?_
  · intro b s L h p n hI hmem
    exact assert_true (by simpa using (h1.live_good hI hmem).1.1) _
  · intro b s h hI
    obtain ⟨⟨hT, _⟩, _, NL, ⟨g1, g2, g3⟩, _⟩ := hI
    have hT' : idle (α := (A.denote sys).St) s = 0 := hT
    show releaseD sys _ true s = release sys _ s
    cases s with
    | nil => rfl
    | cons nd rest =>
      cases rest with
      | nil => rfl
      | cons nd2 rest =>
        exfalso
        cases NL with
        | nil => cases g1
        | cons x NL =>
          cases NL with
          | nil => cases g1
          | cons y NL =>
            have e2 : y.1 = nd2 := (List.cons.inj (List.cons.inj g1).2).1
            have hL := List.nil_perm.1 g3
            simp only [List.flatMap_cons, List.append_eq_nil_iff] at hL
            have hc := (g2 y (by simp)).1
            rw [hL.2.1, e2] at hc
            simp only [idle, List.tail_cons, List.countP_cons] at hT'
            rw [if_pos (by simpa using hc)] at hT'
            omega

set_option smartUnfolding false in
theorem cascadingD_mono (sys : Sys) (A : AllocTy) (hwf : (AllocTy.cascading A).WF)
    (hD : Sound ((A.denote sys).withFreeing (A.freeing sys)) (A.dfits sys.plat))
    (hm : ∀ b s L h, hD.Inv b s L h → (A.sound sys hwf.1).Inv b s L h) (b s L h)
    (hI : (cascadingD_sound sys A hwf hD hm).Inv b s L h) : ((AllocTy.cascading A).sound sys hwf).Inv b s L h := by
  obtain ⟨_, h1, NL, h2, g1, g2, hd, rfl, hN, hb⟩ := hI
  exact ⟨fun c hc => ⟨(h1 c hc).1, A.dfits_fits sys.plat _ (h1 c hc).2⟩, NL, h2, g1, g2, hd, rfl, nodesInv_mono hm NL g1 hN, hb⟩

set_option smartUnfolding false in
/-- Every well-formed composed allocator with assertions satisfies the contract, for requests that are not hopeless;
the memory it holds is as without assertions. -/
def AllocTy.dsound (sys : Sys) : (t : AllocTy) → (hwf : t.WF) →
    { hD : Sound ((t.denote sys).withFreeing (t.freeing sys)) (t.dfits sys.plat) //
      ∀ b s L h, hD.Inv b s L h → (t.sound sys hwf).Inv b s L h }
  | null, _ => ⟨null_sound.replace _ (fun b s L h p n hI hm => by rw [hI.1] at hm; cases hm) (fun _ _ _ _ => rfl), fun _ _ _ _ h => h⟩
  | mallocator, _ => ⟨mallocator_sound sys, fun _ _ _ _ h => h⟩
  | linear S, _ => ⟨(linear_sound S).notNull, fun _ _ _ _ h => h⟩
  | stack S, _ => ⟨stack_sound S, fun _ _ _ _ h => h⟩
  | freelist m M A, h =>
    ⟨(freelist_sound m M (A.dsound sys h.1).1 h.2.1 h.2.2).notNull,
      freelist_mono m M (A.dsound sys h.1).2 (A.dfits_fits sys.plat) h.2.1 h.2.2⟩
  | fallback P F, h =>
    ⟨fallback_sound (P.dsound sys h.1).1 (F.dsound sys h.2.1).1 (by
        show (P.denote sys).owns.isSome = true
        rw [owns_isSome]; exact h.2.2), by
      rintro b s L g ⟨h1, L1, L2, hp, g1, g2, hd, rfl, h3, h4⟩
      exact ⟨fun c hc => ⟨(h1 c hc).1, P.dfits_fits sys.plat _ (h1 c hc).2.1, F.dfits_fits sys.plat _ (h1 c hc).2.2⟩, L1, L2, hp,
        g1, g2, hd, rfl, (P.dsound sys h.1).2 _ _ _ _ h3, (F.dsound sys h.2.1).2 _ _ _ _ h4⟩⟩
  | segragator T P F, h =>
    ⟨segragator_sound T (P.dsound sys h.1).1 (F.dsound sys h.2).1, by
      rintro b s L g ⟨h1, g1, g2, hd, rfl, h3, h4⟩
      exact ⟨fun c hc => ⟨fun e => P.dfits_fits sys.plat _ ((h1 c hc).1 e), fun e => F.dfits_fits sys.plat _ ((h1 c hc).2 e)⟩,
        g1, g2, hd, rfl, (P.dsound sys h.1).2 _ _ _ _ h3, (F.dsound sys h.2).2 _ _ _ _ h4⟩⟩
  | cascading A, h =>
    ⟨cascadingD_sound sys A h (A.dsound sys h.1).1 (A.dsound sys h.1).2,
      cascadingD_mono sys A h (A.dsound sys h.1).1 (A.dsound sys h.1).2⟩
  | overflow A, h =>
    ⟨(overflow_sound (A.dsound sys h).1).notNull, overflow_mono (A.dsound sys h).2 (A.dfits_fits sys.plat)⟩
  | threaded A, h =>
    ⟨threaded_sound (A.dsound sys h).1, fun _ _ _ g hI => star_mono_left (fun _ h' => (A.dsound sys h).2 _ _ _ _ h') g hI⟩
  | shared A, h =>
    ⟨shared_sound sys (A.dsound sys h.1).1 (fun _ => by
        have := h.2; show (A.denote sys).objSize + 16 + 16 < W64; simp only [objSize_eq]; omega),
      fun _ _ _ g hI => ⟨hI.1, star_mono_left (fun _ h' => (A.dsound sys h.1).2 _ _ _ _ h') g hI.2⟩⟩
  | reference A, h =>
    ⟨reference_sound (A.dsound sys h).1, fun _ _ _ g hI => star_mono_left (fun _ h' => (A.dsound sys h).2 _ _ _ _ h') g hI⟩

/-! ### `construct` and `destroy` -/

theorem AllocTy.construct_isSome (sys : Sys) : ∀ t : AllocTy,
    ((t.denote sys).construct.isSome = t.hasConstruct ∧ (t.denote sys).destroy.isSome = t.hasConstruct) ∧
    ((t.building sys).construct.isSome = t.hasConstruct ∧ (t.building sys).destroy.isSome = t.hasConstruct)
  | null => ⟨⟨rfl, rfl⟩, rfl, rfl⟩
  | mallocator => ⟨⟨rfl, rfl⟩, rfl, rfl⟩
  | linear _ => ⟨⟨rfl, rfl⟩, rfl, rfl⟩
  | stack _ => ⟨⟨rfl, rfl⟩, rfl, rfl⟩
  | freelist _ _ A => by
    have := construct_isSome sys A
    simp only [denote, building, KTL.freelist, hasConstruct, Option.isSome_map]
    exact this
  | fallback P F => by
    have h1 := construct_isSome sys P
    have h2 := construct_isSome sys F
    simp only [denote, building, KTL.fallback, hasConstruct, route2, h1, h2]
    cases P.hasConstruct <;> cases F.hasConstruct <;> exact ⟨⟨rfl, rfl⟩, rfl, rfl⟩
  | segragator _ P F => by
    have h1 := construct_isSome sys P
    have h2 := construct_isSome sys F
    simp only [denote, building, KTL.segragator, hasConstruct, route2, h1, h2]
    cases P.hasConstruct <;> cases F.hasConstruct <;> exact ⟨⟨rfl, rfl⟩, rfl, rfl⟩
  | cascading A => by
    have := construct_isSome sys A
    simp only [denote, building, KTL.cascading, hasConstruct, Option.isSome_map]
    exact this
  | overflow _ => ⟨⟨rfl, rfl⟩, rfl, rfl⟩
  | threaded A => construct_isSome sys A
  | shared A => by
    have := construct_isSome sys A
    simp only [denote, building, KTL.sharedAlloc, hasConstruct, Option.isSome_map]
    exact this
  | reference A => construct_isSome sys A

/-- the two functions do the same for this state and location, if both exist -/
def Agree {σ : Type} (g c : Option (σ → Nat → M σ)) (s : σ) (p : Nat) : Prop :=
  ∀ g' c', g = some g' → c = some c' → g' s p = c' s p

theorem Agree.map {σ τ : Type} {g c : Option (σ → Nat → M σ)} {s : σ} {t : τ} {p : Nat} (h : Agree g c s p)
    (k : (σ → Nat → M σ) → τ → Nat → M τ) (hk : ∀ g' c', g' s p = c' s p → k g' t p = k c' t p) :
    Agree (g.map k) (c.map k) t p := by
  intro g' c' hg hc
  obtain ⟨a, ha, rfl⟩ := Option.map_eq_some_iff.1 hg
  obtain ⟨b, hb, rfl⟩ := Option.map_eq_some_iff.1 hc
  exact hk a b (h a b ha hb)

theorem Agree.route2 {P F : Allocator} {gP cP : Option (P.St → Nat → M P.St)} {gF cF : Option (F.St → Nat → M F.St)} {ev : Nat → Ev}
    {s : P.St × F.St} {p : Nat} (eP : gP.isSome = cP.isSome) (eF : gF.isSome = cF.isSome)
    (hP : P.ownsD s.1 p = true → Agree gP cP s.1 p) (hF : P.ownsD s.1 p = false → Agree gF cF s.2 p) :
    Agree (route2 P F gP gF ev) (route2 P F cP cF ev) s p := by
  intro g' c' hg hc
  unfold KTL.route2 at hg hc
  split at hg
  · split at hc
    · cases hg
      cases hc
      dsimp only
      cases ho : P.ownsD s.1 p with
      | true =>
        cases gP with
        | none =>
          cases cP with
          | none => rfl
          | some c => cases eP
        | some g =>
          cases cP with
          | none => cases eP
          | some c => exact congrArg (fun m : M P.St => m >>= fun s1 => (pure (s1, s.2) : M (P.St × F.St))) (hP ho g c rfl rfl)
      | false =>
        cases gF with
        | none =>
          cases cF with
          | none => rfl
          | some c => cases eF
        | some g =>
          cases cF with
          | none => cases eF
          | some c => exact congrArg (fun m : M F.St => m >>= fun s2 => (pure (s.1, s2) : M (P.St × F.St))) (hF ho g c rfl rfl)
    · cases hc
  · cases hg

theorem overflow_agree {A : Allocator} {o : Building A.St} (s : Overflow.St A.St) (p : Nat)
    (e1 : o.construct.isSome = A.construct.isSome) (e2 : o.destroy.isSome = A.destroy.isSome)
    (h1 : Agree o.construct A.construct s.a p) (h2 : Agree o.destroy A.destroy s.a p) :
    Agree (overflow (A.withBuilding o)).construct (overflow A).construct s p ∧
    Agree (overflow (A.withBuilding o)).destroy (overflow A).destroy s p := by
  constructor
  · intro g c hg hc
    cases hg
    cases hc
    dsimp only
    cases hx : o.construct with
    | none =>
      cases hy : A.construct with
      | none => rfl
      | some c => rw [hx, hy] at e1; cases e1
    | some g =>
      cases hy : A.construct with
      | none => rw [hx, hy] at e1; cases e1
      | some c => simp only [h1 g c hx hy]; rfl
  · intro g c hg hc
    cases hg
    cases hc
    dsimp only
    cases hx : o.destroy with
    | none =>
      cases hy : A.destroy with
      | none => rfl
      | some c => rw [hx, hy] at e2; cases e2
    | some g =>
      cases hy : A.destroy with
      | none => rw [hx, hy] at e2; cases e2
      | some c => simp only [h2 g c hx hy]; rfl

theorem heap_none_left {h1 h2 : Heap} {x : Nat} (h : (h1.add h2).b x = none) : h1.b x = none := by
  cases e : h1.b x with
  | none => rfl
  | some v =>
    simp only [Heap.add, e] at h
    cases h

theorem heap_none_right {h1 h2 : Heap} {x : Nat} (h : (h1.add h2).b x = none) : h2.b x = none := by
  cases e : h2.b x with
  | none => rfl
  | some v =>
    simp only [Heap.add, e] at h
    cases e1 : h1.b x <;> simp [e1] at h

theorem routeGoD_agree {plat : Plat} {A : Allocator} {fA : Nat → Prop} {hA : Sound A fA} (ho : A.owns.isSome = true)
    {g c : A.St → Nat → M A.St} {ev : Nat → Ev} {p : Nat} (hp : p ≠ 0)
    (hgc : ∀ b s L h, hA.Inv b s L h → inLive L p → h.b p = none → g s p = c s p)
    (NL : List (Node A.St × List (Nat × Nat))) (h : Heap) (hN : nodesInv plat hA NL h)
    (hl : inLive (NL.flatMap Prod.snd) p) (hn : h.b p = none) :
    routeGoD A g ev p (NL.map Prod.fst) = routeGo A c ev p (NL.map Prod.fst) := by
  obtain ⟨f, hf⟩ := Option.isSome_iff_exists.1 ho
  induction NL generalizing h with
  | nil => exact absurd hl not_inLive_nil
  | cons x NL ih =>
    obtain ⟨h1, h2, _, rfl, ⟨h3, h4, _, rfl, hI, _⟩, hr⟩ := hN
    simp only [List.map_cons, routeGoD, routeGo]
    have hx := heap_none_left (heap_none_left hn)
    by_cases hown : A.ownsD x.1.st p = true
    · rw [if_pos hown, if_pos hown]
      have : f x.1.st p = true := by simpa only [Allocator.ownsD, hf] using hown
      have hin : inLive x.2 p := (hA.owns_sound f hf hI hp this).resolve_left (by simp [hx])
      rw [hgc _ _ _ _ hI hin hx]
    · rw [if_neg hown, if_neg hown]
      rw [List.flatMap_cons, inLive_append] at hl
      rcases hl with hl | hl
      · exact absurd (by simpa only [Allocator.ownsD, hf] using hA.owns_complete f hf hI hl) hown
      · rw [ih _ hr hl (heap_none_right hn)]

theorem pair_owned {P F : Allocator} {fP fF : Nat → Prop} {hP : Sound P fP} {hF : Sound F fF} (ho : P.owns.isSome = true)
    {b b' : Nat} {s : P.St × F.St} {L1 L2 : List (Nat × Nat)} {h : Heap} {p : Nat} (hp : p ≠ 0)
    (hI : (hP.Inv b s.1 L1 ∗ hF.Inv b' s.2 L2) h) (hl : inLive (L1 ++ L2) p) (hn : h.b p = none) :
    (P.ownsD s.1 p = true → ∃ h', hP.Inv b s.1 L1 h' ∧ inLive L1 p ∧ h'.b p = none) ∧
    (P.ownsD s.1 p = false → ∃ h', hF.Inv b' s.2 L2 h' ∧ inLive L2 p ∧ h'.b p = none) := by
  obtain ⟨f, hf⟩ := Option.isSome_iff_exists.1 ho
  obtain ⟨h1, h2, _, rfl, hI1, hI2⟩ := hI
  have hx := heap_none_left hn
  constructor
  · intro hown
    have : f s.1 p = true := by simpa only [Allocator.ownsD, hf] using hown
    exact ⟨_, hI1, (hP.owns_sound f hf hI1 hp this).resolve_left (by simp [hx]), hx⟩
  · intro hown
    refine ⟨_, hI2, ?_, heap_none_right hn⟩
    rcases inLive_append.1 hl with hl | hl
    · have : P.ownsD s.1 p = true := by simpa only [Allocator.ownsD, hf] using hP.owns_complete f hf hI1 hl
      rw [this] at hown; cases hown
    · exact hl

set_option smartUnfolding false in
/-- For a location in a block of the client, `construct` and `destroy` do the same with and without assertions. -/
theorem AllocTy.building_agree (sys : Sys) : ∀ (t : AllocTy) (hwf : t.WF), t.routable = true →
    ∀ (b : Nat) (s : (t.denote sys).St) (L : List (Nat × Nat)) (h : Heap) (p : Nat), p ≠ 0 →
      (t.sound sys hwf).Inv b s L h → inLive L p → h.b p = none →
      Agree (t.building sys).construct (t.denote sys).construct s p ∧ Agree (t.building sys).destroy (t.denote sys).destroy s p
  | null, _, _, _, _, _, _, _, _, _, _, _ => ⟨fun _ _ h => (nomatch h), fun _ _ h => (nomatch h)⟩
  | mallocator, _, _, _, _, _, _, _, _, _, _, _ => ⟨fun _ _ h => (nomatch h), fun _ _ h => (nomatch h)⟩
  | linear _, _, _, _, _, _, _, _, _, _, _, _ => ⟨fun _ _ h => (nomatch h), fun _ _ h => (nomatch h)⟩
  | stack _, _, _, _, _, _, _, _, _, _, _, _ => ⟨fun _ _ h => (nomatch h), fun _ _ h => (nomatch h)⟩
  | freelist m M A, hwf, hr, b, s, L, h, p, hp, hI, hl, hn => by
    obtain ⟨h1, R, _, g1, g2, _, rfl, hN, _⟩ := hI
    have hl' : inLive (L.map (Freelist.full M) ++ R.map blk) p := by
      obtain ⟨c, hc, h3, h4⟩ := hl
      have := (h1 c hc).2.1
      exact ⟨Freelist.full M c, List.mem_append_left _ (List.mem_map_of_mem hc), h3, by simp only [Freelist.full]; omega⟩
    obtain ⟨i1, i2⟩ := building_agree sys A hwf.1 hr b s.a _ g1 p hp hN hl' (heap_none_left hn)
    exact ⟨i1.map _ fun g c e => congrArg (fun m : KTL.M (A.denote sys).St => m >>= fun a => (pure ⟨a, s.free⟩ : KTL.M (Freelist.St (A.denote sys).St))) e,
      i2.map _ fun g c e => congrArg (fun m : KTL.M (A.denote sys).St => m >>= fun a => (pure ⟨a, s.free⟩ : KTL.M (Freelist.St (A.denote sys).St))) e⟩
  | fallback P F, hwf, hr, b, s, L, h, p, hp, hI, hl, hn => by
    obtain ⟨_, L1, L2, hpm, hI⟩ := hI
    have hr' : P.routable = true ∧ F.routable = true := by simpa [routable] using hr
    have hs : (P.denote sys).owns.isSome = true := by rw [owns_isSome]; exact hwf.2.2
    obtain ⟨q1, q2⟩ := pair_owned hs hp hI ((inLive_perm hpm).1 hl) hn
    have e1 := construct_isSome sys P
    have e2 := construct_isSome sys F
    refine ⟨Agree.route2 (e1.2.1.trans e1.1.1.symm) (e2.2.1.trans e2.1.1.symm) (fun ho => ?_) (fun ho => ?_),
      Agree.route2 (e1.2.2.trans e1.1.2.symm) (e2.2.2.trans e2.1.2.symm) (fun ho => ?_) (fun ho => ?_)⟩
    · obtain ⟨h', i, l, n⟩ := q1 ho
      exact (building_agree sys P hwf.1 hr'.1 _ _ _ _ p hp i l n).1
    · obtain ⟨h', i, l, n⟩ := q2 ho
      exact (building_agree sys F hwf.2.1 hr'.2 _ _ _ _ p hp i l n).1
    · obtain ⟨h', i, l, n⟩ := q1 ho
      exact (building_agree sys P hwf.1 hr'.1 _ _ _ _ p hp i l n).2
    · obtain ⟨h', i, l, n⟩ := q2 ho
      exact (building_agree sys F hwf.2.1 hr'.2 _ _ _ _ p hp i l n).2
  | segragator T P F, hwf, hr, b, s, L, h, p, hp, hI, hl, hn => by
    have e1 := construct_isSome sys P
    have e2 := construct_isSome sys F
    have e0 := construct_isSome sys (segragator T P F)
    by_cases hc : (P.hasConstruct || F.hasConstruct) = true
    · obtain ⟨_, hI⟩ := hI
      have hr' : (P.hasOwns = true ∧ P.routable = true) ∧ F.routable = true := by
        simpa only [routable, hc, Bool.not_true, Bool.false_or, Bool.and_eq_true] using hr
      have hs : (P.denote sys).owns.isSome = true := by rw [owns_isSome]; exact hr'.1.1
      obtain ⟨q1, q2⟩ := pair_owned hs hp hI ((inLive_perm (lo_hi_perm T L)).1 hl) hn
      refine ⟨Agree.route2 (e1.2.1.trans e1.1.1.symm) (e2.2.1.trans e2.1.1.symm) (fun ho => ?_) (fun ho => ?_),
        Agree.route2 (e1.2.2.trans e1.1.2.symm) (e2.2.2.trans e2.1.2.symm) (fun ho => ?_) (fun ho => ?_)⟩
      · obtain ⟨h', i, l, n⟩ := q1 ho
        exact (building_agree sys P hwf.1 hr'.1.2 _ _ _ _ p hp i l n).1
      · obtain ⟨h', i, l, n⟩ := q2 ho
        exact (building_agree sys F hwf.2 hr'.2 _ _ _ _ p hp i l n).1
      · obtain ⟨h', i, l, n⟩ := q1 ho
        exact (building_agree sys P hwf.1 hr'.1.2 _ _ _ _ p hp i l n).2
      · obtain ⟨h', i, l, n⟩ := q2 ho
        exact (building_agree sys F hwf.2 hr'.2 _ _ _ _ p hp i l n).2
    · have h0 : (segragator T P F).hasConstruct = false := by simpa [hasConstruct] using hc
      rw [h0] at e0
      refine ⟨?_, ?_⟩
      · intro g c hg _
        rw [hg] at e0; cases e0.2.1
      · intro g c hg _
        rw [hg] at e0; cases e0.2.2
  | cascading A, hwf, hr, b, s, L, h, p, hp, hI, hl, hn => by
    obtain ⟨_, NL, ⟨g1, _, g3⟩, k1, k2, _, rfl, hN, _⟩ := hI
    have hs : (A.denote sys).owns.isSome = true := by rw [owns_isSome]; exact hwf.2.1
    have hl' := (inLive_perm g3).1 hl
    have ih := building_agree sys A hwf.1 hr
    subst g1
    constructor
    · intro g c hg hc
      obtain ⟨g', hg', rfl⟩ := Option.map_eq_some_iff.1 hg
      obtain ⟨c', hc', rfl⟩ := Option.map_eq_some_iff.1 hc
      exact routeGoD_agree hs hp (fun b s L h i l n => (ih b s L h p hp i l n).1 g' c' hg' hc') NL _ hN hl' (heap_none_left hn)
    · intro g c hg hc
      obtain ⟨g', hg', rfl⟩ := Option.map_eq_some_iff.1 hg
      obtain ⟨c', hc', rfl⟩ := Option.map_eq_some_iff.1 hc
      exact routeGoD_agree hs hp (fun b s L h i l n => (ih b s L h p hp i l n).2 g' c' hg' hc') NL _ hN hl' (heap_none_left hn)
  | overflow A, hwf, hr, b, s, L, h, p, hp, hI, hl, hn => by
    obtain ⟨h1, g1, g2, _, rfl, hN, _⟩ := hI
    have hl' : inLive (L.map Overflow.wide) p := by
      obtain ⟨c, hc, h3, h4⟩ := hl
      have := (h1 c hc).1
      exact ⟨Overflow.wide c, List.mem_map_of_mem hc, by simp only [Overflow.wide]; omega, by simp only [Overflow.wide]; omega⟩
    obtain ⟨i1, i2⟩ := building_agree sys A hwf hr b s.a _ g1 p hp hN hl' (heap_none_left hn)
    have e := construct_isSome sys A
    exact overflow_agree s p (e.2.1.trans e.1.1.symm) (e.2.2.trans e.1.2.symm) i1 i2
  | threaded A, hwf, hr, b, s, L, h, p, hp, hI, hl, hn => by
    obtain ⟨g1, g2, _, rfl, hN, _⟩ := hI
    exact building_agree sys A hwf hr b s L g1 p hp hN hl (heap_none_left hn)
  | shared A, hwf, hr, b, s, L, h, p, hp, hI, hl, hn => by
    obtain ⟨_, g1, g2, _, rfl, hN, _⟩ := hI
    obtain ⟨i1, i2⟩ := building_agree sys A hwf.1 hr s.1 s.2 L g1 p hp hN hl (heap_none_left hn)
    exact ⟨i1.map _ fun g c e => congrArg (fun m : KTL.M (A.denote sys).St => m >>= fun a => (pure (s.1, a) : KTL.M (Nat × (A.denote sys).St))) e,
      i2.map _ fun g c e => congrArg (fun m : KTL.M (A.denote sys).St => m >>= fun a => (pure (s.1, a) : KTL.M (Nat × (A.denote sys).St))) e⟩
  | reference A, hwf, hr, b, s, L, h, p, hp, hI, hl, hn => by
    obtain ⟨g1, g2, _, rfl, hN, _⟩ := hI
    exact building_agree sys A hwf hr _ s L g1 p hp hN hl (heap_none_left hn)

/-! ### Comparing with the build without assertions -/

theorem Below.assert {α β : Type} {f : α → β} (c : Bool) {k : M α} {d : M β} (h : Below f k d) :
    Below f (M.assert c >>= fun _ => k) d := by
  cases c with
  | true => exact h
  | false => exact fun _ => .inl rfl

theorem half_refines {A : Allocator} {o : Freeing A.St} (h1 : ∀ s p n, Below id (o.dealloc s p n) (A.dealloc s p n))
    (h2 : ∀ s, Below id (o.fini s) (A.fini s)) : Refines (A.withFreeing o) A id :=
  { Refines.refl A with dealloc := h1, fini := h2 }

theorem nodeMap_id {σ : Type} : (List.map (Node.map id) : List (Node σ) → List (Node σ)) = id := by
  funext s
  exact List.map_id s

theorem releaseD_below (sys : Sys) {A B : Allocator} {f : A.St → B.St} (h : Refines A B f) (front : Bool) (s : List (Node A.St)) :
    Below id (releaseD sys A front s) (release sys B (s.map (Node.map f))) := by
  induction s generalizing front with
  | nil => exact Below.refl _
  | cons nd rest ih =>
    simp only [List.map_cons, release, releaseD, Node.map]
    refine Below.assert _ (Below.bind (f := id) ?_ (fun _ => ih false))
    exact Below.bind (h.fini nd.st) (fun _ => Below.refl _)

set_option smartUnfolding false in
/-- Unless an assertion fails, `deallocate` and the destructor do the same with and without assertions. -/
theorem AllocTy.freeing_below (sys : Sys) : ∀ t : AllocTy,
    (∀ s p n, Below id ((t.freeing sys).dealloc s p n) ((t.denote sys).dealloc s p n)) ∧
    ∀ s, Below id ((t.freeing sys).fini s) ((t.denote sys).fini s)
  | null => ⟨fun _ _ _ => Below.assert _ (Below.refl _), fun _ => Below.refl _⟩
  | mallocator => ⟨fun _ _ _ => Below.refl _, fun _ => Below.refl _⟩
  | linear _ => ⟨fun _ _ _ => Below.assert _ (Below.refl _), fun _ => Below.refl _⟩
  | stack _ => ⟨fun _ _ _ => Below.refl _, fun _ => Below.refl _⟩
  | freelist m M A => by
    have r := freelist_refines m M (half_refines (freeing_below sys A).1 (freeing_below sys A).2)
    exact ⟨fun s p n => Below.assert _ (r.dealloc s p n), r.fini⟩
  | fallback P F => by
    have r := fallback_refines (half_refines (freeing_below sys P).1 (freeing_below sys P).2)
      (half_refines (freeing_below sys F).1 (freeing_below sys F).2)
    exact ⟨r.dealloc, r.fini⟩
  | segragator T P F => by
    have r := segragator_refines T (half_refines (freeing_below sys P).1 (freeing_below sys P).2)
      (half_refines (freeing_below sys F).1 (freeing_below sys F).2)
    exact ⟨r.dealloc, r.fini⟩
  | cascading A => by
    have hr := half_refines (freeing_below sys A).1 (freeing_below sys A).2
    have r := cascading_refines sys hr
    rw [nodeMap_id] at r
    refine ⟨fun s p n => Below.assert _ (r.dealloc s p n), fun s => ?_⟩
    have := releaseD_below sys hr true s
    rw [nodeMap_id] at this
    exact this
  | overflow A => by
    obtain ⟨i1, i2⟩ := freeing_below sys A
    refine ⟨fun s p n => Below.assert _ ?_, fun s => ?_⟩
    · show Below id ((KTL.overflow ((A.denote sys).withFreeing (A.freeing sys))).dealloc s p n) ((KTL.overflow (A.denote sys)).dealloc s p n)
      simp only [KTL.overflow]
      by_cases hp : p ≠ 0
      · rw [if_pos hp, if_pos hp]
        refine Below.bind (f := id) (Below.refl _) fun b => Below.bind (f := id) (Below.refl _) fun a =>
          Below.bind (f := id) (Below.refl _) fun _ => Below.bind (i1 _ _ _) fun _ => Below.refl _
      · rw [if_neg hp, if_neg hp]
        exact Below.refl _
    · exact Below.bind (f := id) (Below.refl _) fun _ => Below.bind (f := id) (Below.refl _) fun _ => i2 _
  | threaded A => freeing_below sys A
  | shared A => by
    obtain ⟨i1, i2⟩ := freeing_below sys A
    refine ⟨fun s p n => Below.bind (i1 _ _ _) fun _ => Below.refl _, fun s => ?_⟩
    exact Below.bind (i2 _) (fun _ => Below.refl _)
  | reference A => freeing_below sys A

theorem routeGoD_below {A B : Allocator} {f : A.St → B.St} (h : Refines A B f) {c d} (hc : ∀ s p, Below f (c s p) (d (f s) p)) (ev : Nat → Ev)
    (p : Nat) (s : List (Node A.St)) :
    Below (List.map (Node.map f)) (routeGoD A c ev p s) (routeGo B d ev p (s.map (Node.map f))) := by
  induction s with
  | nil => exact Below.assert _ (fun w => .inr rfl)
  | cons nd rest ih =>
    simp only [List.map_cons, routeGoD, routeGo, Node.map]
    rw [h.ownsD]
    split
    · exact Below.bind (hc _ p) (fun st => Below.pure _ _ _ rfl)
    · exact Below.bind ih (fun rest' => Below.pure _ _ _ rfl)

theorem built_refines {A : Allocator} {o : Building A.St} (h : BelowOpt id o.construct A.construct ∧ BelowOpt id o.destroy A.destroy) :
    Refines (A.withBuilding o) A id :=
  { Refines.refl A with construct := h.1, destroy := h.2 }

theorem BelowOpt.refl {σ : Type} (c : Option (σ → Nat → M σ)) : BelowOpt id c c := by
  cases c with
  | none => exact trivial
  | some c => exact fun s p => Below.refl _

theorem BelowOpt.map {σ τ : Type} {c d : Option (σ → Nat → M σ)} {k l : (σ → Nat → M σ) → τ → Nat → M τ} (h : BelowOpt id c d)
    (hk : ∀ c d, (∀ s p, Below id (c s p) (d s p)) → ∀ s p, Below id (k c s p) (l d s p)) : BelowOpt id (c.map k) (d.map l) := by
  cases c with
  | none =>
    cases d with
    | none => exact trivial
    | some d => exact h.elim
  | some c =>
    cases d with
    | none => exact h.elim
    | some d => exact hk c d h

theorem overflow_below {A : Allocator} {o : Building A.St}
    (h : BelowOpt id o.construct A.construct ∧ BelowOpt id o.destroy A.destroy) :
    BelowOpt id (overflow (A.withBuilding o)).construct (overflow A).construct ∧
    BelowOpt id (overflow (A.withBuilding o)).destroy (overflow A).destroy := by
  obtain ⟨h1, h2⟩ := h
  constructor
  · intro s p
    dsimp only
    revert h1
    cases o.construct <;> cases A.construct <;> intro h1
    · exact Below.refl _
    · exact h1.elim
    · exact h1.elim
    · exact Below.bind (h1 _ _) fun _ => Below.refl _
  · intro s p
    dsimp only
    revert h2
    cases o.destroy <;> cases A.destroy <;> intro h2
    · exact Below.refl _
    · exact h2.elim
    · exact h2.elim
    · exact Below.bind (h2 _ _) fun _ => Below.refl _

set_option smartUnfolding false in
/-- Unless an assertion fails, `construct` and `destroy` do the same with and without assertions. -/
theorem AllocTy.building_below (sys : Sys) : ∀ t : AllocTy,
    BelowOpt id (t.building sys).construct (t.denote sys).construct ∧ BelowOpt id (t.building sys).destroy (t.denote sys).destroy
  | null => ⟨trivial, trivial⟩
  | mallocator => ⟨trivial, trivial⟩
  | linear _ => ⟨trivial, trivial⟩
  | stack _ => ⟨trivial, trivial⟩
  | freelist m M A => by
    have r := freelist_refines m M (built_refines (building_below sys A))
    exact ⟨r.construct, r.destroy⟩
  | fallback P F => by
    have r := fallback_refines (built_refines (building_below sys P)) (built_refines (building_below sys F))
    exact ⟨r.construct, r.destroy⟩
  | segragator T P F => by
    have r := segragator_refines T (built_refines (building_below sys P)) (built_refines (building_below sys F))
    exact ⟨r.construct, r.destroy⟩
  | cascading A => by
    obtain ⟨i1, i2⟩ := building_below sys A
    constructor
    · refine i1.map fun c d h s p => ?_
      have := routeGoD_below (Refines.refl (A.denote sys)) h .ctor p s
      rw [nodeMap_id] at this
      exact this
    · refine i2.map fun c d h s p => ?_
      have := routeGoD_below (Refines.refl (A.denote sys)) h .dtor p s
      rw [nodeMap_id] at this
      exact this
  | overflow A => overflow_below (building_below sys A)
  | threaded A => building_below sys A
  | shared A => by
    obtain ⟨i1, i2⟩ := building_below sys A
    exact ⟨i1.map fun c d h s p => Below.bind (h _ _) fun _ => Below.refl _, i2.map fun c d h s p => Below.bind (h _ _) fun _ => Below.refl _⟩
  | reference A => building_below sys A

theorem AllocTy.debug_refines (sys : Sys) (t : AllocTy) : Refines (t.debug sys) (t.denote sys) id :=
  { Refines.refl (t.denote sys) with
    dealloc := (t.freeing_below sys).1
    fini := (t.freeing_below sys).2
    construct := (t.building_below sys).1
    destroy := (t.building_below sys).2 }

/-- the composed allocator with the assertions of `deallocate` and the destructor only -/
@[reducible] def AllocTy.half (sys : Sys) (t : AllocTy) : Allocator := (t.denote sys).withFreeing (t.freeing sys)

theorem AllocTy.half_refines (sys : Sys) (t : AllocTy) : Refines (t.half sys) (t.denote sys) id :=
  KTL.half_refines (t.freeing_below sys).1 (t.freeing_below sys).2

/-- the same client, for the class with all assertions -/
def Client.toDebug {sys : Sys} {t : AllocTy} (c : Client (t.half sys)) : Client (t.debug sys) :=
  ⟨c.st, c.live, c.foreign, c.refused, c.built⟩

/-- One step with all assertions, where `construct` and `destroy` do not stop the program. -/
theorem step_debug (sys : Sys) (t : AllocTy) (c : Client (t.half sys)) (o : Op)
    (hx : ∀ i off x, o = .construct i off ∨ o = .destroy i off → c.live[i]? = some x →
      Agree (t.building sys).construct (t.denote sys).construct c.st (x.1 + off) ∧
      Agree (t.building sys).destroy (t.denote sys).destroy c.st (x.1 + off)) :
    c.toDebug.step sys o = c.step sys o >>= fun c' => pure c'.toDebug := by
  have hsome := t.construct_isSome sys
  have hcall : ∀ (g d : Option ((t.denote sys).St → Nat → M (t.denote sys).St)) p, g.isSome = d.isSome → Agree g d c.st p →
      callOpt (A := t.debug sys) g c.st p = callOpt (A := t.half sys) d c.st p := by
    intro g d p he ha
    cases g with
    | none =>
      cases d with
      | none => rfl
      | some d => cases he
    | some g =>
      cases d with
      | none => cases he
      | some d => exact ha g d rfl rfl
  cases o with
  | allocate n =>
    simp only [Client.step, bind_assoc]
    refine congrArg (fun k => (t.denote sys).alloc c.st n >>= k) (funext fun r => ?_)
    by_cases hr : r.1 = 0
    · simp only [hr, if_true, pure_bind]; rfl
    · simp only [hr, if_false, bind_assoc, pure_bind]; rfl
  | deallocate i =>
    simp only [Client.step]
    show (match c.live[i]? with | none => _ | some b => _ : M _) = _
    cases c.live[i]? with
    | none => rfl
    | some x => simp only [bind_assoc, pure_bind]; rfl
  | write i off v =>
    simp only [Client.step]
    show (match c.live[i]? with | none => _ | some b => _ : M _) = _
    cases c.live[i]? with
    | none => rfl
    | some x =>
      by_cases h : off < x.2.length
      · simp only [h, if_true, bind_assoc, pure_bind]; rfl
      · simp only [h, if_false, pure_bind]
  | construct i off =>
    simp only [Client.step]
    show (match c.live[i]? with | none => _ | some b => _ : M _) = _
    cases e : c.live[i]? with
    | none => rfl
    | some x =>
      simp only [bind_assoc, pure_bind]
      have := hcall (t.building sys).construct (t.denote sys).construct (x.1 + off) (hsome.2.1.trans hsome.1.1.symm)
        (hx i off x (.inl rfl) e).1
      exact congrArg (fun m : M (t.denote sys).St => m >>= fun s => (pure ⟨s, c.live, c.foreign, c.refused, c.built + 1⟩ : M (Client (t.debug sys)))) this
  | destroy i off =>
    simp only [Client.step]
    show (match c.live[i]? with | none => _ | some b => _ : M _) = _
    cases e : c.live[i]? with
    | none => rfl
    | some x =>
      simp only [bind_assoc, pure_bind]
      have := hcall (t.building sys).destroy (t.denote sys).destroy (x.1 + off) (hsome.2.2.trans hsome.1.2.symm)
        (hx i off x (.inr rfl) e).2
      exact congrArg (fun m : M (t.denote sys).St => m >>= fun s => (pure ⟨s, c.live, c.foreign, c.refused, c.built - 1⟩ : M (Client (t.debug sys)))) this
  | «foreign» n =>
    simp only [Client.step, bind_assoc]
    refine congrArg (fun k => cMalloc sys n >>= k) (funext fun r => ?_)
    by_cases hr : r = 0
    · simp only [hr, if_true, pure_bind]
    · simp only [hr, if_false, bind_assoc, pure_bind]; rfl

theorem sane_calm_fits {sys : Sys} {t : AllocTy} (hwf : t.WF) {ops : List Op} (hops : Sane t ops)
    (hc : ∀ n, Op.allocate n ∈ ops → t.calm n) : Requests (t.dfits sys.plat) ops :=
  fun n hn => ⟨(hops n hn).1, t.dfits_of_calm sys.plat hwf n (hops n hn).2.1 (hops n hn).2.2 (hc n hn)⟩

theorem play_half (sys : Sys) (t : AllocTy) (hwf : t.WF) (b : Nat) (w : World) (hs : Storage w b t.size) (ops : List Op)
    (hops : Requests (t.dfits sys.plat) ops) :
    (play sys (t.half sys) b ops >>= fun c => pure (Client.map (A := t.half sys) (B := t.denote sys) id c)) w = play sys (t.denote sys) b ops w :=
  checks_hold sys (t.dsound sys hwf).1 (t.half_refines sys) b w (by
    show Storage w b (t.denote sys).objSize
    rw [t.objSize_eq]; exact hs) ops hops

/-- With all assertions a history is as with those of `deallocate` and the destructor. -/
theorem play_debug (sys : Sys) (t : AllocTy) (hwf : t.WF) (b : Nat) (w : World) (hs : Storage w b t.size) (ops : List Op)
    (hops : Requests (t.dfits sys.plat) ops) (hr : t.routable = true ∨ ∀ i off, Op.construct i off ∉ ops ∧ Op.destroy i off ∉ ops)
    (hin : BuildsInside sys (t.denote sys) b ops w) :
    play sys (t.debug sys) b ops w = (play sys (t.half sys) b ops >>= fun c => pure c.toDebug) w := by
  induction ops using snocRec with
  | nil =>
    show ((t.denote sys).init b >>= fun s => (pure ⟨s, [], [], [], 0⟩ : M (Client (t.debug sys)))) w =
      (((t.denote sys).init b >>= fun s => (pure ⟨s, [], [], [], 0⟩ : M (Client (t.half sys)))) >>= fun c => pure c.toDebug) w
    simp only [bind_assoc, pure_bind]; rfl
  | append_singleton ops o ih =>
    have hops1 : Requests (t.dfits sys.plat) ops := fun n hn => hops n (List.mem_append_left _ hn)
    have ih := ih hops1 (hr.imp id fun h i off => ⟨fun hm => (h i off).1 (List.mem_append_left _ hm), fun hm => (h i off).2 (List.mem_append_left _ hm)⟩)
      (fun pre o' post i off e ho c w' hp x hx =>
        hin pre o' (post ++ [o]) i off (by rw [e]; simp) ho c w' hp x hx)
    have hs' : Storage w b (t.half sys).objSize := by
      show Storage w b (t.denote sys).objSize
      rw [t.objSize_eq]; exact hs
    rw [play_append, play_append, M.bind_apply, ih]
    simp only [bind_assoc]
    cases hp : play sys (t.half sys) b ops w with
    | ub => rw [M.bind_apply, hp, M.bind_apply, hp]
    | oom w1 => rw [M.bind_apply, hp, M.bind_apply, hp]
    | ok c w1 =>
      rw [bind_of_ok hp, bind_of_ok hp]
      have hst : c.toDebug.step sys o = c.step sys o >>= fun c' => pure c'.toDebug := by
        refine step_debug sys t c o fun i off x ho hx => ?_
        have hmem : o ∈ ops ++ [o] := by simp
        rcases hr with hr | hr
        · have hpd : play sys (t.denote sys) b ops w = .ok (Client.map (A := t.half sys) (B := t.denote sys) id c) w1 := by
            rw [← play_half sys t hwf b w hs ops hops1, bind_of_ok hp]; rfl
          have hoff : off < x.2.length := hin ops o [] i off rfl ho _ w1 hpd x hx
          have hh := sound_history sys (t.dsound sys hwf).1 b w hs' ops hops1
          rw [hp] at hh
          obtain ⟨h, hf, hd, he, ⟨h1, h2, hd1, rfl, hI, h3, h4, hd2, rfl, hL, hF⟩⟩ := hh
          have hxm : blk x ∈ c.live.map blk := List.mem_map_of_mem (List.mem_of_getElem? hx)
          have hl : inLive (c.live.map blk) (x.1 + off) := ⟨blk x, hxm, Nat.le_add_right _ _, by simp only [blk]; omega⟩
          have hb := blocksV_isSome hL hl
          have hn : h1.b (x.1 + off) = none := by
            have := hd1.1 (x.1 + off)
            rw [Heap.add_b] at this
            rcases this with h | h
            · exact h
            · rw [Option.or_eq_none_iff] at h
              rw [h.1] at hb; cases hb
          have hg : x.1 ≠ 0 := ((t.dsound sys hwf).1.live_good hI hxm).1.1
          exact t.building_agree sys hwf hr b c.st _ h1 (x.1 + off) (by omega)
            ((t.dsound sys hwf).2 _ _ _ _ hI) hl hn
        · rcases ho with rfl | rfl
          · exact absurd hmem (hr i off).1
          · exact absurd hmem (hr i off).2
      show c.toDebug.run sys [o] w1 = _
      have e1 : c.toDebug.run sys [o] = c.toDebug.step sys o := by
        simp only [Client.run]; exact bind_pure _
      have e2 : c.run sys [o] = c.step sys o := by
        simp only [Client.run]; exact bind_pure _
      rw [e1, e2, hst]

/-- **C75, proved part.** A program that follows the rules (requests of sizes for which no size computation wraps, frees with
the original size, objects only inside its own blocks) and makes no hopeless request of a cascade does exactly the same with
and without assertions: no assertion of `deallocate`, `construct` or `destroy` fails, and when everything has been given
back, none of the destructor. Missing: hopeless requests, for which it is false (`C75_false`). -/
theorem C75_no_assertion_fires_partial (sys : Sys) (t : AllocTy) (hwf : t.WF) (b : Nat) (w : World) (hs : Storage w b t.size)
    (ops : List Op) (hops : Sane t ops) (hc : ∀ n, Op.allocate n ∈ ops → t.calm n)
    (hr : t.routable = true ∨ ∀ i off, Op.construct i off ∉ ops ∧ Op.destroy i off ∉ ops)
    (hin : BuildsInside sys (t.denote sys) b ops w) :
    (play sys (t.debug sys) b ops >>= fun c => pure c.released) w = play sys (t.denote sys) b ops w ∧
    play sys (t.debug sys) b ops w ≠ .ub ∧
    ∀ (c : Client (t.debug sys)) w', play sys (t.debug sys) b ops w = .ok c w' → c.live = [] →
      (t.debug sys).fini c.st w' = (t.denote sys).fini c.st w' ∧ (t.debug sys).fini c.st w' ≠ .ub := by
  have hf := sane_calm_fits (sys := sys) hwf hops hc
  have e := play_debug sys t hwf b w hs ops hf hr hin
  have hs' : Storage w b (t.half sys).objSize := by
    show Storage w b (t.denote sys).objSize
    rw [t.objSize_eq]; exact hs
  have hh := sound_history sys (t.dsound sys hwf).1 b w hs' ops hf
  have e2 := play_half sys t hwf b w hs ops hf
  refine ⟨?_, ?_, ?_⟩
  · rw [M.bind_apply, e, ← e2]
    cases hp : play sys (t.half sys) b ops w with
    | ub => rw [M.bind_apply, M.bind_apply, hp]
    | oom w1 => rw [M.bind_apply, M.bind_apply, hp]
    | ok c w1 => rw [bind_of_ok hp, bind_of_ok hp]; rfl
  · intro hub
    rw [e] at hub
    cases hp : play sys (t.half sys) b ops w with
    | ub => rw [hp] at hh; exact hh
    | oom w1 => rw [M.bind_apply, hp] at hub; cases hub
    | ok c w1 => rw [bind_of_ok hp] at hub; cases hub
  · intro c w' hrun hl
    rw [e] at hrun
    obtain ⟨c0, w1, h0, h1⟩ := bind_ok hrun
    cases h1
    have hl : c0.live = [] := hl
    rw [h0] at hh
    obtain ⟨h, hf, hd, he, hI⟩ := hh
    have hfin := ((t.dsound sys hwf).1.fini_spec b c0.st).frame (blocksV c0.live ∗ foreignV c0.foreign)
    have hI' : ((t.dsound sys hwf).1.Inv b c0.st [] ∗ (blocksV c0.live ∗ foreignV c0.foreign)) h := by
      have : ((t.dsound sys hwf).1.Inv b c0.st (c0.live.map blk) ∗ (blocksV c0.live ∗ foreignV c0.foreign)) h := hI
      rw [hl, List.map_nil] at this
      rw [hl]; exact this
    have h3 := hfin w' h hf hd he hI'
    have hnub : (t.freeing sys).fini c0.st w' ≠ .ub := by
      intro hub
      have hub : (t.half sys).fini c0.st w' = .ub := hub
      rw [hub] at h3
      exact h3
    refine ⟨?_, hnub⟩
    rcases (t.freeing_below sys).2 c0.st w' with h4 | h4
    · exact absurd h4 hnub
    · exact (congrFun (bind_pure ((t.freeing sys).fini c0.st)).symm w').trans h4

/-- **C75, what assertions do.** For every composed allocator and every client program whatsoever: until an assertion fails,
the program does the same as without assertions. -/
theorem C75_only_stops (sys : Sys) (t : AllocTy) (b : Nat) (ops : List Op) (w : World) :
    play sys (t.debug sys) b ops w = .ub ∨
    (play sys (t.debug sys) b ops >>= fun c => pure c.released) w = play sys (t.denote sys) b ops w :=
  play_below sys (t.debug_refines sys) b ops w

/-- **C75, how it fails.** After a hopeless request of a cascade (one that even a new instance refuses although `max_size()`
allows it) the destructor does not get through: the assertion `next == m_Node` fails, whether or not everything has been
given back. -/
theorem C75_hopeless_stops (sys : Sys) (A : AllocTy) (hwf : (AllocTy.cascading A).WF) (b : Nat) (w : World)
    (hs : Storage w b (AllocTy.cascading A).size) (ops : List Op) (hops : Sane (.cascading A) ops)
    (n : Nat) (hn : 0 < n ∧ n + A.margin < W64) (hh : A.Hopeless n)
    (c : Client ((AllocTy.cascading A).debug sys)) (w' : World)
    (hrun : play sys ((AllocTy.cascading A).debug sys) b (ops ++ [.allocate n]) w = .ok c w') (u : Unit) (w'' : World) :
    ((AllocTy.cascading A).debug sys).fini c.st w' ≠ .ok u w'' := by
  have toRelease : ∀ ops (c : Client ((AllocTy.cascading A).debug sys)) w',
      play sys ((AllocTy.cascading A).debug sys) b ops w = .ok c w' →
      play sys (cascading sys (A.denote sys)) b ops w = .ok c.released w' := by
    intro ops c w' h
    rcases C75_only_stops sys (.cascading A) b ops w with e | e
    · rw [h] at e; cases e
    · rw [bind_of_ok h] at e; exact e.symm
  obtain ⟨c1, w1, h1, _⟩ := play_snoc_ok hrun
  have hlen := (C16_hopeless_adds sys A hwf b w hs ops hops _ w1 (toRelease _ _ _ h1) n hn hh 0 _ w' (toRelease _ _ _ hrun)).2
  intro hfin
  have hlen : List.length (α := Node (A.denote sys).St) c.st = max (List.length c1.released.st) 1 + 1 := hlen
  have hfin : releaseD sys ((A.denote sys).withFreeing (A.freeing sys)) true c.st w' = .ok u w'' := hfin
  match hst : (c.st : List (Node (A.denote sys).St)), hlen, hfin with
  | [], hlen, _ => simp at hlen
  | [_], hlen, _ => simp at hlen
  | nd :: nd2 :: rest, _, hfin =>
    obtain ⟨_, w2, _, hfin⟩ := bind_ok (c := M.assert true) hfin
    obtain ⟨_, w3, _, hfin⟩ := bind_ok hfin
    obtain ⟨_, w4, hfin, _⟩ := bind_ok (c := M.assert false) hfin
    cases hfin

/-- **C75 is false as stated.** `cascading<linear_allocator<20>>`: one request of 20 bytes is refused; nothing is live, the
build without assertions destroys the object without trouble, the build with assertions stops in the destructor. -/
theorem C75_false : ∃ (t : AllocTy) (ops : List Op), t.WF ∧ Sane t ops ∧
    (∃ c w', play (demoSys .direct) (t.debug (demoSys .direct)) 4096 ops (demoWorld t.size) = .ok c w' ∧ c.live = [] ∧
      (∃ w'', (t.denote (demoSys .direct)).fini c.st w' = .ok () w'') ∧ (t.debug (demoSys .direct)).fini c.st w' = .ub) := by
  refine ⟨.cascading (.linear 20), [.allocate 20], by decide, ?_, ?_⟩
  · intro n hn
    simp only [List.mem_singleton, Op.allocate.injEq] at hn
    subst hn
    decide
  · have h : (play (demoSys .direct) ((AllocTy.cascading (.linear 20)).debug (demoSys .direct)) 4096 [.allocate 20]
        (demoWorld (AllocTy.cascading (.linear 20)).size)).test (fun c w' => c.live.isEmpty &&
          (((AllocTy.cascading (.linear 20)).denote (demoSys .direct)).fini c.st w').test (fun _ _ => true) &&
          (((AllocTy.cascading (.linear 20)).debug (demoSys .direct)).fini c.st w').isUB) = true := by decide +kernel
    revert h
    cases play (demoSys .direct) ((AllocTy.cascading (.linear 20)).debug (demoSys .direct)) 4096 [.allocate 20]
        (demoWorld (AllocTy.cascading (.linear 20)).size) with
    | ub => intro h; cases h
    | oom w => intro h; cases h
    | ok c w' =>
      intro h
      simp only [Res.test, Bool.and_eq_true] at h
      obtain ⟨⟨h1, h2⟩, h3⟩ := h
      refine ⟨c, w', rfl, List.isEmpty_iff.1 h1, ?_, ?_⟩
      · revert h2
        cases ((AllocTy.cascading (.linear 20)).denote (demoSys .direct)).fini c.st w' with
        | ok u w'' => intro _; exact ⟨w'', rfl⟩
        | oom w => intro h; cases h
        | ub => intro h; cases h
      · revert h3
        cases ((AllocTy.cascading (.linear 20)).debug (demoSys .direct)).fini c.st w' with
        | ok u w'' => intro h; cases h
        | oom w => intro h; cases h
        | ub => intro _; rfl

/-! ### The hypotheses can be met -/

/-- A cascade with `construct` of its own inside, and a fallback that routes. -/
def assertTy : AllocTy := .fallback (.cascading (.overflow (.linear 512))) .mallocator

/-- Two instances, objects in both and in the fallback, everything returned. -/
def assertOps : List Op :=
  [.allocate 300, .allocate 200, .allocate 600, .construct 0 8, .construct 1 0, .construct 2 299, .destroy 0 8, .destroy 1 0,
    .deallocate 0, .deallocate 1, .deallocate 0]

example : assertTy.WF ∧ assertTy.routable = true ∧ Sane assertTy assertOps ∧ (∀ n, Op.allocate n ∈ assertOps → assertTy.calm n) := by
  refine ⟨by decide, by decide, ?_, ?_⟩
  · intro n hn
    simp only [assertOps, List.mem_cons, Op.allocate.injEq, reduceCtorEq, List.not_mem_nil, or_false, false_or] at hn
    rcases hn with rfl | rfl | rfl <;> decide
  · intro n hn
    simp only [assertOps, List.mem_cons, Op.allocate.injEq, reduceCtorEq, List.not_mem_nil, or_false, false_or] at hn
    rcases hn with rfl | rfl | rfl <;> simp only [assertTy, AllocTy.calm, and_true] <;> decide

/-- the program of the example builds inside its blocks -/
example : BuildsInside (demoSys .direct) (assertTy.denote (demoSys .direct)) 4096 [.allocate 300, .construct 0 8] (demoWorld assertTy.size) := by
  intro pre o post i off e ho c w' hp x hx
  have hc : ∀ (r : Res (Client (assertTy.denote (demoSys .direct)))), r = .ok c w' →
      r.test (fun c _ => match c.live[0]? with | some x => decide (8 < x.2.length) | none => false) = true →
      ∀ x, c.live[0]? = some x → 8 < x.2.length := by
    rintro r rfl h x hx
    simpa [Res.test, hx] using h
  match pre, e with
  | [], e => cases e; rcases ho with h | h <;> cases h
  | [a], e =>
    cases e
    rcases ho with h | h
    · cases h
      exact hc _ hp (by decide +kernel) x hx
    · cases h
  | a :: a' :: as, e => simp at e

/-- the whole program, with assertions -/
example : (play (demoSys .direct) (assertTy.debug (demoSys .direct)) 4096 assertOps (demoWorld assertTy.size)).test (fun c w' =>
    c.live.isEmpty && ((assertTy.debug (demoSys .direct)).fini c.st w').test (fun _ _ => true)) = true := by decide +kernel

/-- assertions do fail for programs that break the rules: an object outside all blocks, a leak -/
example : (play (demoSys .direct) ((AllocTy.cascading (.overflow (.linear 512))).debug (demoSys .direct)) 4096
    [.allocate 300, .construct 0 100000] (demoWorld 16)).isUB = true := by decide +kernel

example : (play (demoSys .direct) ((AllocTy.cascading (.linear 512)).debug (demoSys .direct)) 4096
    [.allocate 300, .allocate 300] (demoWorld 16)).test (fun c w' =>
      (((AllocTy.cascading (.linear 512)).debug (demoSys .direct)).fini c.st w').isUB) = true := by decide +kernel

/-- a leak in the first instance goes unnoticed -/
example : (play (demoSys .direct) ((AllocTy.cascading (.linear 512)).debug (demoSys .direct)) 4096
    [.allocate 300] (demoWorld 16)).test (fun c w' => !c.live.isEmpty &&
      (((AllocTy.cascading (.linear 512)).debug (demoSys .direct)).fini c.st w').test (fun _ _ => true)) = true := by decide +kernel

end KTL
