import Verif.Spec.Memory

/-!
# Lemmas about the memory model
-/

namespace Pydisort
open Finset Spec

theorem Mem.bind_apply {α β : Type} (x : Mem α) (f : α → Mem β) (h : Heap) :
    (x >>= f) h = match x h with | (.ok a, h') => f a h' | (.error e, h') => (.error e, h') := rfl

theorem Mem.pure_apply {α : Type} (x : α) (h : Heap) : (pure x : Mem α) h = (.ok x, h) := rfl

/-- `h'` has all the objects of `h`, with the same contents. -/
structure Grows (h h' : Heap) : Prop where
  nv : h.nv ≤ h'.nv
  nm : h.nm ≤ h'.nm
  v : ∀ p < h.nv, h'.v p = h.v p
  m : ∀ p < h.nm, h'.m p = h.m p

theorem Grows.refl (h : Heap) : Grows h h := ⟨le_rfl, le_rfl, fun _ _ => rfl, fun _ _ => rfl⟩

theorem Grows.trans {h1 h2 h3 : Heap} (a : Grows h1 h2) (b : Grows h2 h3) : Grows h1 h3 :=
  ⟨a.nv.trans b.nv, a.nm.trans b.nm, fun p hp => (b.v p (hp.trans_le a.nv)).trans (a.v p hp),
    fun p hp => (b.m p (hp.trans_le a.nm)).trans (a.m p hp)⟩

/-- The code only creates objects. -/
def OnlyNew {α : Type} (x : Mem α) : Prop := ∀ h, Grows h (x h).2

theorem onlyNew_pure {α : Type} (x : α) : OnlyNew (pure x : Mem α) := fun h => Grows.refl h

theorem onlyNew_raise {α : Type} (x : Py α) : OnlyNew (Mem.raise x) := fun h => Grows.refl h

theorem onlyNew_new1 (x : A1 ℝ) : OnlyNew (Mem.new1 x) := fun h =>
  ⟨Nat.le_succ _, le_rfl, fun p hp => Function.update_of_ne (Nat.ne_of_lt hp) _ _, fun _ _ => rfl⟩

theorem onlyNew_new2 (x : A2 ℝ) : OnlyNew (Mem.new2 x) := fun h =>
  ⟨le_rfl, Nat.le_succ _, fun _ _ => rfl, fun p hp => Function.update_of_ne (Nat.ne_of_lt hp) _ _⟩

theorem onlyNew_bind {α β : Type} {x : Mem α} {f : α → Mem β} (hx : OnlyNew x) (hf : ∀ a, OnlyNew (f a)) :
    OnlyNew (x >>= f) := fun h => by
  rw [Mem.bind_apply]
  have h1 := hx h
  rcases hxh : x h with ⟨e | a, h'⟩
  · rw [hxh] at h1; exact h1
  · rw [hxh] at h1; exact h1.trans (hf a h')

theorem onlyNew_ite {α : Type} {p : Prop} [Decidable p] {x y : Mem α} (hx : OnlyNew x) (hy : OnlyNew y) :
    OnlyNew (if p then x else y) := by split <;> assumption

theorem onlyNew_build (E : Ext) (J : Junk) (x : Vars) (a : Args) : OnlyNew (x.build E J a) := by
  unfold Vars.build
  repeat' first
    | exact onlyNew_pure _
    | exact onlyNew_raise _
    | exact onlyNew_new1 _
    | exact onlyNew_new2 _
    | (refine onlyNew_bind ?_ fun _ => ?_)
    | (refine onlyNew_ite ?_ ?_)

/-! ## Conversion of the arguments -/

theorem atleast1d_spec (i : In1) (h : Heap) (hi : Exists1 h i) : ∃ p h', atleast1d i h = (.ok p, h') ∧ Grows h h' ∧
    h'.v p = value1 h i ∧ p < h'.nv ∧ (∀ q, i = .arr q → p = q) ∧ (∀ q < h.nv, p = q → i = .arr q) := by
  cases i with
  | arr p => exact ⟨p, h, rfl, Grows.refl h, rfl, hi, fun q hq => (by cases hq; rfl), fun q _ e => by rw [e]⟩
  | lit x => exact ⟨h.nv, _, rfl, onlyNew_new1 x h, Function.update_self _ _ _, Nat.lt_succ_self _, fun q hq => (by cases hq),
      fun q hq e => absurd hq (by rw [← e]; exact lt_irrefl _)⟩

/-- The object is there. -/
def Ref2.Exists (h : Heap) : Ref2 → Prop
  | .arr p => p < h.nm
  | .row p => p < h.nv

theorem atleast2d_spec (i : In2) (h : Heap) (hi : Exists2 h i) : ∃ p h', atleast2d i h = (.ok p, h') ∧ Grows h h' ∧
    p.read h' = value2 h i ∧ p.Exists h' ∧ (∀ q, p = .row q → i = .row q) ∧ (∀ q, i = .row q → p = .row q) ∧
    (∀ q, i = .arr q → p = .arr q) ∧ (∀ q < h.nm, p = .arr q → i = .arr q) := by
  cases i with
  | arr p => exact ⟨.arr p, h, rfl, Grows.refl h, rfl, hi, fun q hq => (by cases hq), fun q hq => (by cases hq),
      fun q hq => (by cases hq; rfl), fun q _ hq => (by cases hq; rfl)⟩
  | row p => exact ⟨.row p, h, rfl, Grows.refl h, rfl, hi, fun q hq => (by cases hq; rfl), fun q hq => (by cases hq; rfl),
      fun q hq => (by cases hq), fun q _ hq => (by cases hq)⟩
  | lit x => exact ⟨.arr h.nm, _, rfl, onlyNew_new2 x h, Function.update_self _ _ _, Nat.lt_succ_self _, fun q hq => (by cases hq),
      fun q hq => (by cases hq), fun q hq => (by cases hq),
      fun q hq e => (by cases e; exact absurd hq (lt_irrefl _))⟩

theorem exists1_grows {h h' : Heap} (g : Grows h h') {i : In1} (hi : Exists1 h i) : Exists1 h' i := by
  cases i with
  | arr p => exact lt_of_lt_of_le hi g.nv
  | lit x => trivial

theorem exists2_grows {h h' : Heap} (g : Grows h h') {i : In2} (hi : Exists2 h i) : Exists2 h' i := by
  cases i with
  | arr p => exact lt_of_lt_of_le hi g.nm
  | row p => exact lt_of_lt_of_le hi g.nv
  | lit x => trivial

theorem value1_grows {h h' : Heap} (g : Grows h h') {i : In1} (hi : Exists1 h i) : value1 h' i = value1 h i := by
  cases i with
  | arr p => exact g.v p hi
  | lit x => rfl

theorem value2_grows {h h' : Heap} (g : Grows h h') {i : In2} (hi : Exists2 h i) : value2 h' i = value2 h i := by
  cases i with
  | arr p => exact g.m p hi
  | row p => exact congrArg A1.row (g.v p hi)
  | lit x => rfl

theorem read_grows {h h' : Heap} (g : Grows h h') {r : Ref2} (hr : r.Exists h) : r.read h' = r.read h := by
  cases r with
  | arr p => exact g.m p hr
  | row p => exact congrArg A1.row (g.v p hr)

theorem Ref2.Exists.grows {h h' : Heap} (g : Grows h h') {r : Ref2} (hr : r.Exists h) : r.Exists h' := by
  cases r with
  | arr p => exact lt_of_lt_of_le hr g.nm
  | row p => exact lt_of_lt_of_le hr g.nv

/-- What is known after lines 184-188. -/
structure Converted (c : CallArgs) (h : Heap) (x : Vars) (g : Heap) : Prop where
  grows : Grows h g
  now : x.now c.rest g = (.ok (argsOf c h), g)
  tauLt : x.tau < g.nv
  fLt : x.f < g.nv
  omegaLt : x.omega < g.nv
  tau : ∀ p, c.tau = .arr p → x.tau = p
  f : ∀ p, c.f = .arr p → x.f = p
  tauNew : x.tau < h.nv → c.tau = .arr x.tau
  fNew : x.f < h.nv → c.f = .arr x.f
  legRow : ∀ p, x.leg = .row p ↔ c.leg = .row p
  legArr : ∀ p, c.leg = .arr p → x.leg = .arr p
  legNew : ∀ p < h.nm, x.leg = .arr p → c.leg = .arr p
  apart : LegApart c → (∀ p, x.leg = .row p → x.tau ≠ p ∧ x.omega ≠ p ∧ x.f ≠ p ∧ x.s ≠ .row p) ∧ ∀ p, x.leg = .arr p → x.s ≠ .arr p

theorem convert_spec (c : CallArgs) (h : Heap) (hv : Valid c h) : ∃ x g, c.convert h = (.ok x, g) ∧ Converted c h x g := by
  obtain ⟨tau, h1, e1, g1, v1, l1, a1, n1⟩ := atleast1d_spec c.tau h hv.tau
  obtain ⟨omega, h2, e2, g2, v2, l2, a2, n2⟩ := atleast1d_spec c.omega h1 (exists1_grows g1 hv.omega)
  obtain ⟨leg, h3, e3, g3, v3, l3, r3, b3, a3, n3⟩ := atleast2d_spec c.leg h2 (exists2_grows (g1.trans g2) hv.leg)
  obtain ⟨s, h4, e4, g4, v4, l4, r4, b4, a4, n4⟩ := atleast2d_spec c.s h3 (exists2_grows ((g1.trans g2).trans g3) hv.s)
  obtain ⟨f, h5, e5, g5, v5, l5, a5, n5⟩ := atleast1d_spec c.f h4 (exists1_grows (((g1.trans g2).trans g3).trans g4) hv.f)
  have g12 := g1.trans g2
  have g13 := g12.trans g3
  have g14 := g13.trans g4
  have g45 := g4.trans g5
  have g35 := g3.trans g45
  have g25 := g2.trans g35
  refine ⟨⟨tau, omega, leg, s, f⟩, h5, ?_, ?_⟩
  · simp only [CallArgs.convert, Mem.bind_apply, e1, e2, e3, e4, e5, Mem.pure_apply]
  refine ⟨g14.trans g5, ?_, l1.trans_le g25.nv, l5, l2.trans_le g35.nv, a1, a5, fun hp => n1 tau hp rfl,
    fun hp => n5 f (hp.trans_le g14.nv) rfl, fun p => ⟨r3 p, b3 p⟩, a3,
    fun p hp e => n3 p (hp.trans_le g12.nm) e, ?_⟩
  · simp only [Vars.now, argsOf]
    rw [g25.v tau l1, v1, g35.v omega l2, v2, value1_grows g1 hv.omega, read_grows g45 l3, v3,
      value2_grows g12 hv.leg, read_grows g5 l4, v4, value2_grows g13 hv.s, v5, value1_grows g14 hv.f]
  · intro ha
    refine ⟨fun p hp => ?_, fun p hp hs => ?_⟩
    · have hc := r3 p hp
      have hpv : p < h.nv := by have := hv.leg; rw [hc] at this; exact this
      obtain ⟨q1, q2, q3, q4⟩ := ha.1 p hc
      exact ⟨fun e => q1 (n1 p hpv e), fun e => q2 (n2 p (hpv.trans_le g1.nv) e), fun e => q3 (n5 p (hpv.trans_le g14.nv) e),
        fun e => q4 (r4 p e)⟩
    · have hp' : leg = .arr p := hp
      have hs' : s = .arr p := hs
      rw [hp'] at l3
      have hcs := n4 p l3 hs'
      have hpm : p < h.nm := by have := hv.s; rw [hcs] at this; exact this
      exact ha.2 p (n3 p (hpm.trans_le g12.nm) hp') hcs

/-! ## The checks -/

/-- `Leg_coeffs_all` after line 248. -/
noncomputable def Args.fixed (a : Args) : Args := { a with leg := ⟨a.leg.r, a.leg.c, a.legFix⟩ }

theorem legFix_fixed (a : Args) : a.fixed.legFix = a.legFix := by
  funext l k
  by_cases hk : k = 0
  · subst hk
    by_cases hc : ∀ l < a.NLayers, a.omega.get l * a.leg.get l 0 = a.omega.get l
    · have hl : ∀ l, a.legFix l 0 = a.leg.get l 0 := fun l => by unfold Args.legFix; rw [if_neg (fun h => h.1 hc)]
      show (if ¬ (∀ l < a.NLayers, a.omega.get l * a.legFix l 0 = a.omega.get l) ∧ 0 = 0 then (1 : ℝ) else a.legFix l 0) = _
      simp only [hl]
      rw [if_neg (by simpa using hc)]
    · have hl : ∀ l, a.legFix l 0 = 1 := fun l => by unfold Args.legFix; rw [if_pos ⟨hc, rfl⟩]
      show (if ¬ (∀ l < a.NLayers, a.omega.get l * a.legFix l 0 = a.omega.get l) ∧ 0 = 0 then (1 : ℝ) else a.legFix l 0) = _
      simp only [hl, ite_self]
  · show (if ¬ (∀ l < a.NLayers, a.omega.get l * a.legFix l 0 = a.omega.get l) ∧ k = 0 then (1 : ℝ) else a.legFix l k) = _
    rw [if_neg (fun h => hk h.2)]

theorem fixed_of_normal (a : Args) (hc : ∀ l < a.NLayers, a.omega.get l * a.leg.get l 0 = a.omega.get l) : a.fixed = a := by
  have : a.legFix = a.leg.get := by funext l k; unfold Args.legFix; rw [if_neg (fun h => h.1 hc)]
  rw [Args.fixed, this]

theorem fixed_of_wrong (a : Args) (hc : ¬ ∀ l < a.NLayers, a.omega.get l * a.leg.get l 0 = a.omega.get l) :
    a.fixed = { a with leg := ⟨a.leg.r, a.leg.c, fun l k => if k = 0 then 1 else a.leg.get l k⟩ } := by
  have : a.legFix = fun l k => if k = 0 then 1 else a.leg.get l k := by
    funext l k; unfold Args.legFix
    by_cases hk : k = 0
    · rw [if_pos ⟨hc, hk⟩, if_pos hk]
    · rw [if_neg (fun h => hk h.2), if_neg hk]
  rw [Args.fixed, this]

theorem checks2_fixed (a : Args) : a.fixed.checks2 = a.checks2 := by
  unfold Args.checks2
  rw [legFix_fixed]
  rfl

open Classical in
theorem runChecks_ok (cs : List (Prop × String)) : runChecks cs = .ok () ↔ ∀ c ∈ cs, c.1 := by
  induction cs with
  | nil => simp [runChecks]
  | cons c cs ih =>
    obtain ⟨p, m⟩ := c
    by_cases hp : p
    · simp only [runChecks, if_pos hp, ih, List.forall_mem_cons]; tauto
    · simp only [runChecks, if_neg hp, List.forall_mem_cons]; simp [hp]

/-- The memory after line 248, if it is executed. -/
def Ref2.ones (r : Ref2) (h : Heap) : Heap := (r.setOnes h).2

open Classical in
/-- Is line 248 executed? -/
def Args.Writes (a : Args) : Prop :=
  (a.tauArr.n ≠ 0 ∧ ∀ c ∈ a.checks1, c.1) ∧ ¬ ∀ l < a.NLayers, a.omega.get l * a.leg.get l 0 = a.omega.get l

theorem setOnes_apply (r : Ref2) (h : Heap) : r.setOnes h = (.ok (), r.ones h) := rfl

theorem raise_apply {α : Type} (x : Py α) (h : Heap) : Mem.raise x h = (x, h) := rfl

theorem now_snd (x : Vars) (rest : Args) (h : Heap) : ∃ a, x.now rest h = (.ok a, h) := ⟨_, rfl⟩

open Classical in
theorem check_heap (x : Vars) (rest a : Args) (h : Heap) (hn : x.now rest h = (.ok a, h)) :
    (x.check rest h).2 = if a.Writes then x.leg.ones h else h := by
  unfold Vars.check
  simp only [Mem.bind_apply, hn, raise_apply]
  by_cases h0 : a.tauArr.n = 0
  · rw [if_pos h0, if_neg (fun hw : a.Writes => hw.1.1 h0)]
  rw [if_neg h0]
  rcases hr : runChecks a.checks1 with e | u
  · have : ¬ a.Writes := fun hw => by rw [(runChecks_ok _).2 hw.1.2] at hr; cases hr
    rw [if_neg this]
  · have hc := (runChecks_ok _).1 hr
    by_cases hl : ∀ l < a.NLayers, a.omega.get l * a.leg.get l 0 = a.omega.get l
    · have e : x.correct a h = (.ok (), h) := by unfold Vars.correct; rw [if_neg (not_not.2 hl)]; rfl
      simp only [e, hn]
      rw [if_neg (fun hw : a.Writes => hw.2 hl)]
      rcases runChecks a.checks2 with e | u <;> rfl
    · have e : x.correct a h = (.ok (), x.leg.ones h) := by unfold Vars.correct; rw [if_pos hl]; rfl
      obtain ⟨a', ha'⟩ := now_snd x rest (x.leg.ones h)
      simp only [e, ha']
      have hw : a.Writes := ⟨⟨h0, hc⟩, hl⟩
      rw [if_pos hw]
      rcases runChecks a'.checks2 with e | u <;> rfl

theorem ones_now (x : Vars) (rest a : Args) (h : Heap) (hn : x.now rest h = (.ok a, h))
    (hap : (∀ p, x.leg = .row p → x.tau ≠ p ∧ x.omega ≠ p ∧ x.f ≠ p ∧ x.s ≠ .row p) ∧ ∀ p, x.leg = .arr p → x.s ≠ .arr p) :
    x.now rest (x.leg.ones h) = (.ok { a with leg := ⟨a.leg.r, a.leg.c, fun l k => if k = 0 then 1 else a.leg.get l k⟩ }, x.leg.ones h) := by
  obtain ⟨tau, omega, leg, s, f⟩ := x
  simp only [Vars.now, Prod.mk.injEq, Except.ok.injEq] at hn
  obtain ⟨hn, -⟩ := hn
  subst hn
  cases leg with
  | row p =>
    obtain ⟨q1, q2, q3, q4⟩ := hap.1 p rfl
    have hs : s.read ((Ref2.row p).ones h) = s.read h := by
      cases s with
      | arr q => rfl
      | row q => exact congrArg A1.row (Function.update_of_ne (fun e => q4 (by rw [e])) _ _)
    have hl : (Ref2.row p).read ((Ref2.row p).ones h)
        = ⟨((Ref2.row p).read h).r, ((Ref2.row p).read h).c, fun l k => if k = 0 then 1 else ((Ref2.row p).read h).get l k⟩ := by
      show A1.row (Function.update h.v p _ p) = _
      rw [Function.update_self]; rfl
    have ho : ∀ q, q ≠ p → ((Ref2.row p).ones h).v q = h.v q := fun q hq => Function.update_of_ne hq _ _
    simp only [Vars.now, hs, hl, ho tau q1, ho omega q2, ho f q3]
  | arr p =>
    have q4 := hap.2 p rfl
    have hs : s.read ((Ref2.arr p).ones h) = s.read h := by
      cases s with
      | arr q => exact Function.update_of_ne (fun e => q4 (by rw [e])) _ _
      | row q => rfl
    have hl : (Ref2.arr p).read ((Ref2.arr p).ones h)
        = ⟨((Ref2.arr p).read h).r, ((Ref2.arr p).read h).c, fun l k => if k = 0 then 1 else ((Ref2.arr p).read h).get l k⟩ := by
      show Function.update h.m p _ p = _
      rw [Function.update_self]; rfl
    have ho : ∀ q, ((Ref2.arr p).ones h).v q = h.v q := fun q => rfl
    simp only [Vars.now, hs, hl, ho]

open Classical in
theorem check_spec (x : Vars) (rest a : Args) (h : Heap) (hn : x.now rest h = (.ok a, h))
    (hap : (∀ p, x.leg = .row p → x.tau ≠ p ∧ x.omega ≠ p ∧ x.f ≠ p ∧ x.s ≠ .row p) ∧ ∀ p, x.leg = .arr p → x.s ≠ .arr p) :
    (x.check rest h).1 = a.validate >>= fun _ => .ok a.fixed := by
  unfold Vars.check Args.validate
  simp only [Mem.bind_apply, hn, raise_apply]
  by_cases h0 : a.tauArr.n = 0
  · rw [if_pos h0, if_pos h0]; rfl
  rw [if_neg h0, if_neg h0]
  rcases hr : runChecks a.checks1 with e | u
  · rfl
  · have hc := (runChecks_ok _).1 hr
    by_cases hl : ∀ l < a.NLayers, a.omega.get l * a.leg.get l 0 = a.omega.get l
    · have e : x.correct a h = (.ok (), h) := by unfold Vars.correct; rw [if_neg (not_not.2 hl)]; rfl
      simp only [e, hn]
      rw [fixed_of_normal a hl]
      rcases runChecks a.checks2 with e | u <;> rfl
    · have e : x.correct a h = (.ok (), x.leg.ones h) := by unfold Vars.correct; rw [if_pos hl]; rfl
      simp only [e, ones_now x rest a h hn hap, ← fixed_of_wrong a hl, checks2_fixed]
      rcases runChecks a.checks2 with e | u <;> rfl

/-! ## The set-up -/

open Classical in
/-- Everything after the checks, as a function of the values. -/
noncomputable def core (E : Ext) (J : Junk) (a : Args) : Py Solved := do
  let q ← a.quad E
  let O ← a.optics
  let r ← a.rescaleFactor O
  let S ← solveAll E J (a.asmIn q.1.get q.2.get O r)
  return ⟨a.asmIn q.1.get q.2.get O r, S, if a.NTGate then some (a.ntIn q.1.get O r) else none, a.onlyFlux⟩

theorem pydisort_core (E : Ext) (J : Junk) (a : Args) : pydisort E J a = a.validate >>= fun _ => core E J a := by
  unfold pydisort prepare core
  rcases a.validate with e | u
  · rfl
  rcases hq : a.quad E with e | q
  · simp [bind, Except.bind]
  rcases ho : a.optics with e | O
  · simp [bind, Except.bind]
  rcases hr : a.rescaleFactor O with e | r
  · simp [bind, Except.bind, hr]
  simp [bind, Except.bind, hr, pure, Except.pure]

theorem core_fixed (E : Ext) (J : Junk) (a : Args) : core E J a.fixed = core E J a := by
  have ho : a.fixed.optics = a.optics := by unfold Args.optics; rw [legFix_fixed]; rfl
  have hn : ∀ mu O r, a.fixed.ntIn mu O r = a.ntIn mu O r := fun mu O r => by unfold Args.ntIn; rw [legFix_fixed]; rfl
  unfold core
  rw [ho]
  simp only [hn]
  rfl

/-- What is known of the closure and the memory that `Vars.build` leaves behind. -/
structure Built (x : Vars) (a : Args) (h : Heap) (R : Solved) (c : Closure) (g : Heap) : Prop where
  tau : c.tau = x.tau
  f : c.f = x.f
  I : c.I = R.I
  S : c.S = R.S
  nt : c.nt = R.nt
  onlyFlux : c.onlyFlux = R.onlyFlux
  muArr : h.nv ≤ c.muArr
  mu : h.nv ≤ c.mu ∧ c.mu ≠ c.muArr
  W : h.nv ≤ c.W ∧ c.W ≠ c.muArr
  M_inv : h.nv ≤ c.M_inv ∧ c.M_inv ≠ c.muArr
  scale : h.nv ≤ c.scale ∧ c.scale ≠ c.muArr
  tau0 : h.nv ≤ c.tau0 ∧ c.tau0 ≠ c.muArr
  thick : h.nv ≤ c.thick ∧ c.thick ≠ c.muArr
  s : h.nm ≤ c.s
  wLegAll : h.nm ≤ c.wLegAll
  wLeg : h.nm ≤ c.wLeg
  omegaS : R.nt = none ∨ (h.nv ≤ c.omegaS ∧ c.omegaS ≠ c.muArr)
  gmu : (g.v c.mu).get = R.I.mu
  gW : (g.v c.W).get = R.I.W
  gM : (g.v c.M_inv).get = R.I.M_inv
  gscale : (g.v c.scale).get = R.I.scale
  gtau0 : (g.v c.tau0).get = R.I.tau0
  gs : (g.m c.s).get = R.I.s
  gwLeg : (g.m c.wLeg).get = R.I.wLeg
  gmuArr : g.v c.muArr = R.muArr
  gnt : ∀ n, R.nt = some n → (g.v c.thick).get = n.thick ∧ (g.v c.omegaS).get = n.omegaS ∧ (g.m c.wLegAll).get = n.wLegAll
    ∧ (g.v c.mu).get = n.mu ∧ (g.v c.muArr).get = n.muArr ∧ (g.v c.M_inv).get = n.M_inv ∧ (g.v c.scale).get = n.scale
    ∧ (g.v c.tau0).get = n.tau0 ∧ (g.m c.wLeg).get = n.wLeg ∧ n.tauArr = a.tauArr.get ∧ n.f = a.fArr.get
  Itau : R.I.tauArr = a.tauArr.get
  gate : R.nt ≠ none → a.NTGate

open Classical in
theorem build_spec (E : Ext) (J : Junk) (x : Vars) (a : Args) (h : Heap) (hleg : a.legFix = a.leg.get) :
    (∃ e, core E J a = .error e ∧ (x.build E J a h).1 = .error e) ∨
    ∃ R c, core E J a = .ok R ∧ (x.build E J a h).1 = .ok c ∧ Built x a h R c (x.build E J a h).2 := by
  unfold core Vars.build
  rcases hq : a.quad E with e | q
  · left; exact ⟨e, rfl, by simp only [Mem.bind_apply, raise_apply, Mem.new2]⟩
  rcases ho : a.optics with e | O
  · left; exact ⟨e, rfl, by simp only [Mem.bind_apply, raise_apply, Mem.new2, Mem.new1]⟩
  by_cases hf : ∃ k < a.fArr.n, 0 < a.fArr.get k
  · rcases hr : a.rescaleFactor O with e | r
    · left; exact ⟨e, by simp [bind, Except.bind, hr], by simp only [Mem.bind_apply, raise_apply, Mem.new2, Mem.new1, if_pos hf, hr]⟩
    rcases hS : solveAll E J (a.asmIn q.1.get q.2.get O r) with e | S
    · left; exact ⟨e, by simp [bind, Except.bind, hr, hS], by simp only [Mem.bind_apply, raise_apply, Mem.new2, Mem.new1, if_pos hf, hr, hS]⟩
    right
    simp only [Mem.bind_apply, raise_apply, Mem.new2, Mem.new1, if_pos hf, hr, hS, Mem.pure_apply]
    refine ⟨_, _, by simp only [bind, Except.bind, hr, hS]; rfl, rfl, ?_⟩
    have hM : (q.1.map fun y => 1 / y).get = fun i => 1 / q.1.get i := rfl
    constructor
    case gnt =>
      intro n hn
      by_cases hg : a.NTGate
      · rw [if_pos hg] at hn
        obtain rfl := Option.some.inj hn
        simp [-one_div, Function.update_apply, Args.ntIn, hleg, hM, add_assoc]
      · rw [if_neg hg] at hn; cases hn
    case gate => intro hn; by_contra hg; exact hn (if_neg hg)
    case omegaS => right; constructor <;> simp only <;> omega
    all_goals first
      | rfl
      | (simp only [ne_eq]; omega)
      | (simp [-one_div, Function.update_apply, Args.asmIn, Solved.muArr, hM, add_assoc]; done)
      | (simp [-one_div, Function.update_apply, Args.asmIn, Solved.muArr, hM, add_assoc]; rfl)
  · have hng : ¬ a.NTGate := fun hg => hf hg.2.2.2.1
    rcases hr : a.rescaleFactor O with e | r
    · left; exact ⟨e, by simp [bind, Except.bind, hr], by simp only [Mem.bind_apply, raise_apply, Mem.new2, Mem.new1, if_neg hf, hr, Mem.pure_apply]⟩
    rcases hS : solveAll E J (a.asmIn q.1.get q.2.get O r) with e | S
    · left; exact ⟨e, by simp [bind, Except.bind, hr, hS], by simp only [Mem.bind_apply, raise_apply, Mem.new2, Mem.new1, if_neg hf, hr, hS, Mem.pure_apply]⟩
    right
    simp only [Mem.bind_apply, raise_apply, Mem.new2, Mem.new1, if_neg hf, hr, hS, Mem.pure_apply]
    refine ⟨_, _, by simp only [bind, Except.bind, hr, hS]; rfl, rfl, ?_⟩
    have hM : (q.1.map fun y => 1 / y).get = fun i => 1 / q.1.get i := rfl
    constructor
    case gnt => intro n hn; rw [if_neg hng] at hn; cases hn
    case gate => intro hn; exact absurd (if_neg hng) hn
    case omegaS => left; exact if_neg hng
    all_goals first
      | rfl
      | (simp only [ne_eq]; omega)
      | (simp [-one_div, Function.update_apply, Args.asmIn, Solved.muArr, hM, add_assoc]; done)
      | (simp [-one_div, Function.update_apply, Args.asmIn, Solved.muArr, hM, add_assoc]; rfl)

end Pydisort
