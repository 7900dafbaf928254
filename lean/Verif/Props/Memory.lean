import Verif.MemoryLemmas
import Verif.Props.Corrections

/-!
# C103: shared arrays

Specification used: `Spec.argsOf`, `Spec.Valid`, `Spec.LegApart`, `Spec.writeTo`.
-/

namespace Pydisort
open Finset Spec

variable {E : Ext} {J : Junk} {c : CallArgs} {h : Heap}

open Classical in
/-- The memory after the call. -/
theorem mem_heap (hv : Valid c h) : ∃ x g, Converted c h x g ∧
    Grows (if (argsOf c h).Writes then x.leg.ones g else g) (pydisortMem E J c h).2 := by
  obtain ⟨x, g, hx, hc⟩ := convert_spec c h hv
  refine ⟨x, g, hc, ?_⟩
  rw [← check_heap x c.rest _ g hc.now]
  unfold pydisortMem
  rw [Mem.bind_apply, hx]
  dsimp only
  rw [Mem.bind_apply]
  rcases x.check c.rest g with ⟨e | a, g'⟩
  · exact Grows.refl _
  · exact onlyNew_build E J x a g'

/-- The result of the call. -/
theorem mem_result (hv : Valid c h) (hap : LegApart c) : ∃ x g, Converted c h x g ∧
    ((∃ e, pydisort E J (argsOf c h) = .error e ∧ (pydisortMem E J c h).1 = .error e) ∨
      ∃ R cl, pydisort E J (argsOf c h) = .ok R ∧ (pydisortMem E J c h).1 = .ok cl ∧
        ∃ g', g'.nv = g.nv ∧ g'.nm = g.nm ∧ g'.v x.tau = (argsOf c h).tauArr ∧ g'.v x.f = (argsOf c h).fArr ∧
          Grows g' (pydisortMem E J c h).2 ∧ Built x (argsOf c h).fixed g' R cl (pydisortMem E J c h).2) := by
  obtain ⟨x, g, hx, hc⟩ := convert_spec c h hv
  refine ⟨x, g, hc, ?_⟩
  have hck := check_spec x c.rest _ g hc.now (hc.apart hap)
  have hhp := check_heap x c.rest _ g hc.now
  rw [pydisort_core]
  unfold pydisortMem
  rw [Mem.bind_apply, hx]
  dsimp only
  rw [Mem.bind_apply]
  rcases hkk : x.check c.rest g with ⟨r, g'⟩
  rw [hkk] at hck hhp
  dsimp only at hck hhp
  rcases hva : (argsOf c h).validate with e | u
  · left
    rw [hva] at hck
    subst hck
    exact ⟨e, rfl, rfl⟩
  rw [hva] at hck
  obtain rfl : r = .ok (argsOf c h).fixed := hck
  dsimp only
  have e1 : (do let _ ← (Except.ok u : Py Unit); core E J (argsOf c h)) = core E J (argsOf c h).fixed := (core_fixed E J _).symm
  rw [e1]
  rcases build_spec E J x (argsOf c h).fixed g' (legFix_fixed _) with hb | ⟨R, cl, h1, h2, h3⟩
  · exact Or.inl hb
  · refine Or.inr ⟨R, cl, h1, h2, g', ?_, ?_, ?_, ?_, onlyNew_build E J x _ g', h3⟩
    all_goals
      rw [hhp]
      split_ifs
    · cases x.leg <;> rfl
    · rfl
    · cases x.leg <;> rfl
    · rfl
    · have := ones_now x c.rest _ g hc.now (hc.apart hap)
      simp only [Vars.now, Prod.mk.injEq, Except.ok.injEq, and_true] at this
      exact congrArg Args.tauArr this
    · have := hc.now
      simp only [Vars.now, Prod.mk.injEq, Except.ok.injEq, and_true] at this
      exact congrArg Args.tauArr this
    · have := ones_now x c.rest _ g hc.now (hc.apart hap)
      simp only [Vars.now, Prod.mk.injEq, Except.ok.injEq, and_true] at this
      exact congrArg Args.fArr this
    · have := hc.now
      simp only [Vars.now, Prod.mk.injEq, Except.ok.injEq, and_true] at this
      exact congrArg Args.fArr this

theorem asm_eq {x : Vars} {a : Args} {g' g : Heap} {R : Solved} {cl : Closure} (hb : Built x a g' R cl g)
    (ht : (g.v x.tau).get = a.tauArr.get) : cl.asm g = { R.I with omega := (g.v cl.omegaS).get } := by
  unfold Closure.asm
  rw [hb.I, hb.gmu, hb.gW, hb.gM, hb.gscale, hb.gtau0, hb.gs, hb.gwLeg, hb.tau, ht, ← hb.Itau]

theorem tmsIn_eq {x : Vars} {a : Args} {g' g : Heap} {R : Solved} {cl : Closure} (hb : Built x a g' R cl g)
    (ht : (g.v x.tau).get = a.tauArr.get) (hf : (g.v x.f).get = a.fArr.get) {n : NTIn} (hn : R.nt = some n) : cl.tmsIn g n = n := by
  obtain ⟨h1, h2, h3, h4, h5, h6, h7, h8, h9, h10, h11⟩ := hb.gnt n hn
  unfold Closure.tmsIn
  rw [h1, h2, h3, h4, h5, h6, h7, h8, h9, hb.tau, hb.f, ht, hf, ← h10, ← h11]

theorem imsIn_eq {x : Vars} {a : Args} {g' g : Heap} {R : Solved} {cl : Closure} (hb : Built x a g' R cl g)
    {n : NTIn} (hn : R.nt = some n) : cl.imsIn g n = n := by
  unfold Closure.imsIn
  rw [(hb.gnt n hn).2.2.2.1]

theorem corrFrom_self (n : NTIn) : corrFrom n n = n.corr := rfl

theorem u_nt {cl : Closure} {n : NTIn} (hn : cl.nt = some n) (g : Heap) (tau phi : A1 ℝ) (anti : Bool) : cl.u g tau phi anti =
    if cl.onlyFlux = true then .error .typeError
    else (cl.asm g).u cl.S tau phi anti >>= fun x =>
      corrFrom (cl.tmsIn g n) (cl.imsIn g n) tau phi anti (fun t => (cl.asm g).layer (tau.get t)) >>= fun y =>
      addSqueezed cl.I.rescale x y := by
  unfold Closure.u; rw [hn]

theorem u_none {cl : Closure} (hn : cl.nt = none) (g : Heap) (tau phi : A1 ℝ) (anti : Bool) : cl.u g tau phi anti =
    if cl.onlyFlux = true then .error .typeError else (cl.asm g).u cl.S tau phi anti := by
  unfold Closure.u; rw [hn]

/-- A call that finds its arguments in memory behaves as the call with the values that the arrays have at the time: it raises the same exception, or the functions
it returns, evaluated before anything else happens, return the same, as does `mu_arr`. -/
theorem C103_call_by_value (hv : Valid c h) (hap : LegApart c) :
    (∀ e, pydisort E J (argsOf c h) = .error e → (pydisortMem E J c h).1 = .error e) ∧
    ∀ R, pydisort E J (argsOf c h) = .ok R → ∃ cl, (pydisortMem E J c h).1 = .ok cl ∧
      (pydisortMem E J c h).2.v cl.muArr = R.muArr ∧ ∀ (tau phi : A1 ℝ) (anti : Bool),
        cl.u (pydisortMem E J c h).2 tau phi anti = R.u tau phi anti ∧
        cl.u0 (pydisortMem E J c h).2 tau anti = R.u0 tau anti ∧
        cl.fluxUp (pydisortMem E J c h).2 tau anti = R.fluxUp tau anti ∧
        cl.fluxDown (pydisortMem E J c h).2 tau anti = R.fluxDown tau anti := by
  obtain ⟨x, g, hc, ⟨e, h1, h2⟩ | ⟨R, cl, h1, h2, g', hnv, hnm, ht, hf, hgr, hb⟩⟩ := mem_result (E := E) (J := J) hv hap
  · rw [h1]
    exact ⟨fun e' he => by cases he; exact h2, fun R hR => by cases hR⟩
  rw [h1]
  refine ⟨fun e' he => (by cases he), fun R' hR => ?_⟩
  cases hR
  have ht' : ((pydisortMem E J c h).2.v x.tau).get = (argsOf c h).fixed.tauArr.get := by
    rw [hgr.v x.tau (by rw [hnv]; exact hc.tauLt), ht]; rfl
  have hf' : ((pydisortMem E J c h).2.v x.f).get = (argsOf c h).fixed.fArr.get := by
    rw [hgr.v x.f (by rw [hnv]; exact hc.fLt), hf]; rfl
  have hasm := asm_eq hb ht'
  refine ⟨cl, h2, hb.gmuArr, fun tau phi anti => ⟨?_, ?_, ?_, ?_⟩⟩
  · rcases hn : R.nt with _ | n
    · rw [u_none (hb.nt.trans hn), hb.onlyFlux, hasm, hb.S]
      unfold Solved.u
      rw [hn]
      rfl
    · rw [u_nt (hb.nt.trans hn), hb.onlyFlux, hasm, hb.S, tmsIn_eq hb ht' hf' hn, imsIn_eq hb hn, corrFrom_self, hb.I]
      unfold Solved.u
      rw [hn]
      rfl
  · unfold Closure.u0; rw [hasm, hb.S]; rfl
  · unfold Closure.fluxUp; rw [hasm, hb.S]; rfl
  · unfold Closure.fluxDown; rw [hasm, hb.S]; rfl

/-- Of the caller's arrays a call changes `Leg_coeffs_all` at most, and of that only the first column (line 248), whatever else the call does, raises or not, and
also if the caller passes the same array several times. -/
theorem C103_writes (hv : Valid c h) :
    (∀ p < h.nv, c.leg ≠ .row p → (pydisortMem E J c h).2.v p = h.v p) ∧
    (∀ p < h.nm, c.leg ≠ .arr p → (pydisortMem E J c h).2.m p = h.m p) ∧
    (∀ p, c.leg = .row p → ((pydisortMem E J c h).2.v p).row = (argsOf c h).legAfter) ∧
    (∀ p, c.leg = .arr p → (pydisortMem E J c h).2.m p = (argsOf c h).legAfter) ∧
    (argsOf c h).legAfter.r = (argsOf c h).leg.r ∧ (argsOf c h).legAfter.c = (argsOf c h).leg.c ∧
    ∀ l k, k ≠ 0 → (argsOf c h).legAfter.get l k = (argsOf c h).leg.get l k := by
  classical
  obtain ⟨x, g, hc, hgr⟩ := mem_heap (E := E) (J := J) hv
  have hrow : ∀ p < h.nv, c.leg ≠ .row p → (x.leg.ones g).v p = g.v p := fun p hp hn => by
    rcases hl : x.leg with q | q
    · rfl
    · exact Function.update_of_ne (fun e => hn (by rw [e]; exact (hc.legRow q).1 hl)) _ _
  have harr : ∀ p < h.nm, c.leg ≠ .arr p → (x.leg.ones g).m p = g.m p := fun p hp hn => by
    rcases hl : x.leg with q | q
    · exact Function.update_of_ne (fun e => hn (by rw [e]; exact hc.legNew q (e ▸ hp) hl)) _ _
    · rfl
  have hnv : (x.leg.ones g).nv = g.nv := by cases x.leg <;> rfl
  have hnm : (x.leg.ones g).nm = g.nm := by cases x.leg <;> rfl
  have hfix : (argsOf c h).Writes → (argsOf c h).legAfter
      = ⟨(argsOf c h).leg.r, (argsOf c h).leg.c, fun l k => if k = 0 then 1 else (argsOf c h).leg.get l k⟩ := fun hw => by
    unfold Args.legAfter
    rw [if_pos hw.1]
    exact congrArg Args.leg (fixed_of_wrong _ hw.2)
  have hkeep : ¬ (argsOf c h).Writes → (argsOf c h).legAfter = (argsOf c h).leg := fun hw => by
    unfold Args.legAfter
    split_ifs with h1
    · exact congrArg Args.leg (fixed_of_normal _ (by by_contra h2; exact hw ⟨h1, h2⟩))
    · rfl
  refine ⟨fun p hp hn => ?_, fun p hp hn => ?_, fun p hp => ?_, fun p hp => ?_, ?_, ?_, fun l k hk => ?_⟩
  · rw [← hc.grows.v p hp]
    split_ifs at hgr
    · rw [hgr.v p (by rw [hnv]; exact hp.trans_le hc.grows.nv), hrow p hp hn]
    · exact hgr.v p (hp.trans_le hc.grows.nv)
  · rw [← hc.grows.m p hp]
    split_ifs at hgr
    · rw [hgr.m p (by rw [hnm]; exact hp.trans_le hc.grows.nm), harr p hp hn]
    · exact hgr.m p (hp.trans_le hc.grows.nm)
  · have hpv : p < h.nv := by have := hv.leg; rw [hp] at this; exact this
    have hxl := (hc.legRow p).2 hp
    have hal : (argsOf c h).leg = (g.v p).row := by
      rw [hc.grows.v p hpv]; unfold argsOf; rw [hp]; rfl
    split_ifs at hgr with hw
    · rw [hfix hw, hgr.v p (by rw [hnv]; exact hpv.trans_le hc.grows.nv), hxl, hal]
      show A1.row (Function.update g.v p _ p) = _
      rw [Function.update_self]; rfl
    · rw [hkeep hw, hgr.v p (hpv.trans_le hc.grows.nv), hal]
  · have hpm : p < h.nm := by have := hv.leg; rw [hp] at this; exact this
    have hxl := hc.legArr p hp
    have hal : (argsOf c h).leg = g.m p := by
      rw [hc.grows.m p hpm]; unfold argsOf; rw [hp]; rfl
    split_ifs at hgr with hw
    · rw [hfix hw, hgr.m p (by rw [hnm]; exact hpm.trans_le hc.grows.nm), hxl, hal]
      show Function.update g.m p _ p = _
      rw [Function.update_self]
    · rw [hkeep hw, hgr.m p (hpm.trans_le hc.grows.nm), hal]
  · unfold Args.legAfter; split_ifs <;> rfl
  · unfold Args.legAfter; split_ifs <;> rfl
  · unfold Args.legAfter; split_ifs
    · show (argsOf c h).legFix l k = _
      unfold Args.legFix
      rw [if_neg (fun hh => hk hh.2)]
    · rfl

/-- After the call the functions keep returning the same whatever happens to the arrays of the caller, as long as `tau_arr` is left alone and, if there are intensity
corrections, `f_arr` and the returned `mu_arr` are too. The arrays that `pydisort` itself created (addresses from `h.nv` and `h.nm`) are out of the caller's reach,
except `mu_arr`. Missing: that the functions keep returning the same when `tau_arr`, `f_arr` or `mu_arr` are written to, which is false, see
`C103_tau_false`, `C103_shift`, `C103_f_false`, `C103_mu_false`. -/
theorem C103_results_keep_partial (hv : Valid c h) (hap : LegApart c) {cl : Closure} {g g' : Heap} (hrun : pydisortMem E J c h = (.ok cl, g))
    (hnew : ∀ p, h.nv ≤ p → p ≠ cl.muArr → g'.v p = g.v p) (hnew2 : ∀ p, h.nm ≤ p → g'.m p = g.m p)
    (htau : ∀ p, c.tau = .arr p → g'.v p = g.v p)
    (hf : Corrected (argsOf c h) → ∀ p, c.f = .arr p → g'.v p = g.v p)
    (hmu : Corrected (argsOf c h) → g'.v cl.muArr = g.v cl.muArr) : SameFunctions cl g' g := by
  obtain ⟨x, g0, hc, ⟨e, h1, h2⟩ | ⟨R, cl', h1, h2, g1, hnv, hnm, ht, hff, hgr, hb⟩⟩ := mem_result (E := E) (J := J) hv hap
  · rw [hrun] at h2; cases h2
  rw [hrun] at h2 hgr hb
  cases h2
  dsimp only at hgr hb
  have hle : h.nv ≤ g1.nv := by rw [hnv]; exact hc.grows.nv
  have hlm : h.nm ≤ g1.nm := by rw [hnm]; exact hc.grows.nm
  have hmune : ∀ p < g1.nv, p ≠ cl.muArr := fun p hp e => absurd hb.muArr (by rw [← e]; exact not_le.2 hp)
  have et : g'.v cl.tau = g.v cl.tau := by
    rw [hb.tau]
    by_cases hlt : x.tau < h.nv
    · exact htau _ (hc.tauNew hlt)
    · exact hnew _ (not_lt.1 hlt) (hmune _ (by rw [hnv]; exact hc.tauLt))
  have e0 : g'.v cl.tau0 = g.v cl.tau0 := hnew _ (hle.trans hb.tau0.1) hb.tau0.2
  have e1 : g'.v cl.mu = g.v cl.mu := hnew _ (hle.trans hb.mu.1) hb.mu.2
  have e2 : g'.v cl.W = g.v cl.W := hnew _ (hle.trans hb.W.1) hb.W.2
  have e3 : g'.v cl.M_inv = g.v cl.M_inv := hnew _ (hle.trans hb.M_inv.1) hb.M_inv.2
  have e4 : g'.v cl.scale = g.v cl.scale := hnew _ (hle.trans hb.scale.1) hb.scale.2
  have e5 : g'.v cl.thick = g.v cl.thick := hnew _ (hle.trans hb.thick.1) hb.thick.2
  have e6 : g'.m cl.s = g.m cl.s := hnew2 _ (hlm.trans hb.s)
  have e7 : g'.m cl.wLegAll = g.m cl.wLegAll := hnew2 _ (hlm.trans hb.wLegAll)
  have e8 : g'.m cl.wLeg = g.m cl.wLeg := hnew2 _ (hlm.trans hb.wLeg)
  have hasm : cl.asm g' = { cl.asm g with omega := (g'.v cl.omegaS).get } := by
    unfold Closure.asm; rw [et, e0, e1, e2, e3, e4, e6, e8]
  refine fun tau phi anti => ⟨?_, ?_, ?_, ?_⟩
  · rcases hn : cl.nt with _ | n
    · rw [u_none hn, u_none hn, hasm]; rfl
    · have hnR : R.nt = some n := by rw [← hb.nt, hn]
      have hg : Corrected (argsOf c h) := (corrected_iff (pydisort_ok h1).1).1 (hb.gate (by rw [hnR]; simp))
      have ef : g'.v cl.f = g.v cl.f := by
        rw [hb.f]
        by_cases hlt : x.f < h.nv
        · exact hf hg _ (hc.fNew hlt)
        · exact hnew _ (not_lt.1 hlt) (hmune _ (by rw [hnv]; exact hc.fLt))
      have eo : g'.v cl.omegaS = g.v cl.omegaS := by
        rcases hb.omegaS with ho | ho
        · rw [hnR] at ho; cases ho
        · exact hnew _ (hle.trans ho.1) ho.2
      have etms : cl.tmsIn g' n = cl.tmsIn g n := by
        unfold Closure.tmsIn; rw [et, e0, e5, e4, eo, ef, e7, e8, e1, hmu hg, e3]
      have eims : cl.imsIn g' n = cl.imsIn g n := by unfold Closure.imsIn; rw [e1]
      rw [u_nt hn, u_nt hn, hasm, etms, eims]; rfl
  · unfold Closure.u0; rw [hasm]; rfl
  · unfold Closure.fluxUp; rw [hasm]; rfl
  · unfold Closure.fluxDown; rw [hasm]; rfl

/-- The column is overwritten even if the call then raises, here because the number of streams is odd. -/
theorem C103_written_although_raised (J : Junk) : ∃ c h p e, Valid c h ∧ LegApart c ∧ c.leg = .arr p ∧ (pydisortMem refExt J c h).1 = .error e ∧
    (h.m p).get 0 0 = 2 ∧ ((pydisortMem refExt J c h).2.m p).get 0 0 = 1 := by
  let c : CallArgs := ⟨.lit ⟨1, fun _ => 1⟩, .lit ⟨1, fun _ => 1 / 2⟩, .arr 0, .lit ⟨1, 0, fun _ _ => 0⟩, .lit ⟨1, fun _ => 0⟩,
    { tauArr := ⟨1, fun _ => 1⟩, omega := ⟨1, fun _ => 1 / 2⟩, NQuad := 3, leg := ⟨1, 1, fun _ _ => 1⟩, mu0 := 1, I0 := 0, phi0 := 0, NLeg := some 1, NFourier := some 1 }⟩
  let h : Heap := ⟨fun _ => ⟨0, fun _ => 0⟩, fun _ => ⟨1, 1, fun _ _ => 2⟩, 0, 1⟩
  have hv : Valid c h := ⟨trivial, trivial, one_pos, trivial, trivial⟩
  have hap : LegApart c := ⟨fun p hp => (by cases hp), fun p _ hp => (by cases hp)⟩
  have hw : (argsOf c h).Writes := by
    refine ⟨⟨one_ne_zero, ?_⟩, fun hl => ?_⟩
    · simp only [Args.checks1, List.forall_mem_cons, List.not_mem_nil, false_imp_iff, implies_true, and_true]
      refine ⟨fun _ _ => one_pos, ?_, ⟨fun _ _ => ?_, fun _ _ => ?_⟩, ?_, ?_, rfl, rfl, ?_, ?_⟩
      · intro k hk
        obtain rfl : k = 0 := Nat.lt_one_iff.1 hk
        exact one_pos
      · show (0 : ℝ) ≤ 1 / 2; norm_num
      · show (1 / 2 : ℝ) < 1; norm_num
      · exact one_pos
      · exact le_refl (1 : ℤ)
      · rintro ⟨⟨k, _, hk⟩, _⟩; exact hk rfl
      · rintro ⟨_, hk⟩; exact hk rfl
    · have := hl 0 one_pos
      change (1 / 2 : ℝ) * 2 = 1 / 2 at this
      norm_num at this
  have herr : ∃ e, (pydisortMem refExt J c h).1 = .error e := by
    rcases hr : pydisort refExt J (argsOf c h) with e | R
    · exact ⟨e, (C103_call_by_value hv hap).1 e hr⟩
    · have := (pydisort_ok hr).1.streams.2
      change Even (3 : ℤ) at this
      exact absurd this (by decide)
  obtain ⟨e, he⟩ := herr
  refine ⟨c, h, 0, e, hv, hap, rfl, he, rfl, ?_⟩
  rw [(C103_writes hv).2.2.2.1 0 rfl]
  unfold Args.legAfter
  rw [if_pos hw.1]
  show (argsOf c h).legFix 0 0 = 1
  unfold Args.legFix
  rw [if_pos ⟨hw.2, rfl⟩]

/-! ## Writing to `tau_arr` -/

/-- Halving the entries of `tau_arr` in place after the call (`tau_arr /= 2`) makes `flux_up` refuse the bottom of the atmosphere, for which it returned a value before. -/
theorem C103_tau_false (hv : Valid c h) (hap : LegApart c) {cl : Closure} {g : Heap} (hrun : pydisortMem E J c h = (.ok cl, g)) {p : ℕ}
    (hp : c.tau = .arr p) :
    (∃ y, cl.fluxUp g ⟨1, fun _ => (h.v p).get ((h.v p).n - 1)⟩ false = .ok y) ∧
    cl.fluxUp (writeTo g p ((g.v p).map fun t => t / 2)) ⟨1, fun _ => (h.v p).get ((h.v p).n - 1)⟩ false
      = .error (.valueError "tau input outside the tau range") := by
  obtain ⟨x, g0, hc, ⟨e, h1, h2⟩ | ⟨R, cl', h1, h2, g1, hnv, hnm, ht, hff, hgr, hb⟩⟩ := mem_result (E := E) (J := J) hv hap
  · rw [hrun] at h2; cases h2
  rw [hrun] at h2 hgr hb
  cases h2
  dsimp only at hgr hb
  obtain ⟨hacc, O, r, hO, hr, hI, -⟩ := pydisort_ok h1
  have hxt : x.tau = p := hc.tau p hp
  have hat : (argsOf c h).tauArr = h.v p := by unfold argsOf; rw [hp]; rfl
  have hgt : g.v p = h.v p := by
    have := hgr.v x.tau (by rw [hnv]; exact hc.tauLt)
    rw [hxt] at this
    rw [this, ← hat, ← ht, hxt]
  have hL : R.I.NLayers = (h.v p).n := by rw [hI, ← hat]; rfl
  have hpos : 0 < (h.v p).get ((h.v p).n - 1) := by rw [← hat]; exact ((Args.thick_pos_iff hacc.layers.ne').2 ⟨hacc.top, hacc.increasing⟩).1 _ (by have := hacc.layers; omega)
  constructor
  · have hasm : cl.asm g = _ := asm_eq hb (by rw [hxt, hgt, ← hat]; rfl)
    have hck : (cl.asm g).checkTau ⟨1, fun _ => (h.v p).get ((h.v p).n - 1)⟩ = .ok () := by
      unfold AsmIn.checkTau
      have e1 : (cl.asm g).tauArr ((cl.asm g).NLayers - 1) = (h.v p).get ((h.v p).n - 1) := by
        show (g.v cl.tau).get (cl.I.NLayers - 1) = _
        rw [hb.tau, hxt, hgt, hb.I, hL]
      rw [e1, if_neg]
      rintro (⟨_, _, hk⟩ | ⟨_, _, hk⟩)
      · exact absurd hk (not_lt.2 hpos.le)
      · exact absurd hk (lt_irrefl _)
    obtain ⟨y, hy, -⟩ := (cl.asm g).fluxUp_plain cl.S hck
    exact ⟨y, hy⟩
  · have hck : (cl.asm (writeTo g p ((g.v p).map fun t => t / 2))).checkTau ⟨1, fun _ => (h.v p).get ((h.v p).n - 1)⟩
        = .error (.valueError "tau input outside the tau range") := by
      unfold AsmIn.checkTau
      rw [if_pos]
      right
      refine ⟨0, one_pos, ?_⟩
      show ((Function.update g.v p ((g.v p).map fun t => t / 2)) cl.tau).get (cl.I.NLayers - 1) < _
      rw [hb.tau, hxt, hgt, hb.I, hL, Function.update_self]
      exact half_lt_self hpos
    unfold Closure.fluxUp AsmIn.fluxUp
    rw [hck]
    rfl

theorem layer_shift (I : AsmIn) (d t : ℝ) : ({ I with tauArr := fun k => I.tauArr k + d } : AsmIn).layer t = I.layer (t - d) := by
  unfold AsmIn.layer
  congr 1
  funext k
  exact propext ⟨fun hk => by simp only at hk; linarith, fun hk => by simp only; linarith⟩

theorem scaledTau_shift (I : AsmIn) (d t : ℝ) (hs : ∃ k < I.NLayers, I.scale k ≠ 1) :
    ({ I with tauArr := fun k => I.tauArr k + d } : AsmIn).scaledTau t = I.scaledTau (t - d) := by
  have hs' : ∃ k < ({ I with tauArr := fun k => I.tauArr k + d } : AsmIn).NLayers, ({ I with tauArr := fun k => I.tauArr k + d } : AsmIn).scale k ≠ 1 := hs
  unfold AsmIn.scaledTau
  rw [if_pos hs, if_pos hs', layer_shift]
  ring

theorem checkTau_shift (I : AsmIn) (d : ℝ) (hd : 0 ≤ d) (tau : A1 ℝ) (ht : ∀ k < tau.n, d ≤ tau.get k) :
    ({ I with tauArr := fun k => I.tauArr k + d } : AsmIn).checkTau tau = I.checkTau (tau.map fun t => t - d) := by
  unfold AsmIn.checkTau
  congr 1
  refine propext ⟨?_, ?_⟩
  · rintro (⟨k, hk, h1⟩ | ⟨k, hk, h1⟩)
    · exact absurd (ht k hk) (by linarith)
    · exact Or.inr ⟨k, hk, by simp only [A1.map] at *; linarith⟩
  · rintro (⟨k, hk, h1⟩ | ⟨k, hk, h1⟩)
    · exact absurd (ht k hk) (by simp only [A1.map] at h1; linarith)
    · exact Or.inr ⟨k, hk, by simp only [A1.map] at *; linarith⟩

theorem eval_shift (I : AsmIn) (S : Sols) (d : ℝ) (hd : 0 ≤ d) (hs : ∃ k < I.NLayers, I.scale k ≠ 1) (tau : A1 ℝ) (ht : ∀ k < tau.n, d ≤ tau.get k)
    (anti : Bool) :
    ({ I with tauArr := fun k => I.tauArr k + d } : AsmIn).u0 S tau anti = I.u0 S (tau.map fun t => t - d) anti ∧
    ({ I with tauArr := fun k => I.tauArr k + d } : AsmIn).fluxUp S tau anti = I.fluxUp S (tau.map fun t => t - d) anti := by
  have hl : ({ I with tauArr := fun k => I.tauArr k + d } : AsmIn).layer = fun t => I.layer (t - d) := funext fun t => layer_shift I d t
  have hst : ({ I with tauArr := fun k => I.tauArr k + d } : AsmIn).scaledTau = fun t => I.scaledTau (t - d) := funext fun t => scaledTau_shift I d t hs
  have hu : ∀ m i t, ({ I with tauArr := fun k => I.tauArr k + d } : AsmIn).umPlain S m i t = I.umPlain S m i (t - d) := fun m i t => by
    simp only [AsmIn.umPlain, AsmIn.exponent, hl, hst]
  have ha : ∀ m i t, ({ I with tauArr := fun k => I.tauArr k + d } : AsmIn).umAnti S m i t = I.umAnti S m i (t - d) := fun m i t => by
    simp only [AsmIn.umAnti, AsmIn.exponent, hl, hst]
  have hi : ∀ r0 r1 x, ({ I with tauArr := fun k => I.tauArr k + d } : AsmIn).addIso S tau anti r0 r1 x
      = I.addIso S (tau.map fun t => t - d) anti r0 r1 x := fun r0 r1 x => by
    simp only [AsmIn.addIso, AsmIn.isoPart, hl, hst]
    rfl
  constructor
  · simp only [AsmIn.u0, checkTau_shift I d hd tau ht, hi, AsmIn.u0Raw, hu, ha]
    rfl
  · simp only [AsmIn.fluxUp, checkTau_shift I d hd tau ht, hi, hu, ha]
    rfl

/-- Adding `d ≥ 0` to the entries of `tau_arr` in place after the call (`tau_arr += d`) makes `u0` and `flux_up` return, for depths from `d` on, the values that belong
to the depths less `d`, if delta-M scaling is in effect; no exception reports it. -/
theorem C103_shift (hv : Valid c h) (hap : LegApart c) {cl : Closure} {g : Heap} (hrun : pydisortMem E J c h = (.ok cl, g)) {p : ℕ}
    (hp : c.tau = .arr p) (hs : ∃ l < (argsOf c h).tauArr.n, (argsOf c h).omega.get l * peak (argsOf c h) l ≠ 0) {d : ℝ} (hd : 0 ≤ d)
    {tau : A1 ℝ} (ht : ∀ k < tau.n, d ≤ tau.get k) (anti : Bool) :
    cl.u0 (writeTo g p ((g.v p).map fun t => t + d)) tau anti = cl.u0 g (tau.map fun t => t - d) anti ∧
    cl.fluxUp (writeTo g p ((g.v p).map fun t => t + d)) tau anti = cl.fluxUp g (tau.map fun t => t - d) anti := by
  obtain ⟨x, g0, hc, ⟨e, h1, h2⟩ | ⟨R, cl', h1, h2, g1, hnv, hnm, htt, hff, hgr, hb⟩⟩ := mem_result (E := E) (J := J) hv hap
  · rw [hrun] at h2; cases h2
  rw [hrun] at h2 hgr hb
  cases h2
  dsimp only at hgr hb
  obtain ⟨hacc, O, r, hO, hr, hI, -⟩ := pydisort_ok h1
  have hxt : x.tau = p := hc.tau p hp
  have hpg : p < g1.nv := by rw [hnv, ← hxt]; exact hc.tauLt
  have hne : ∀ q, g1.nv ≤ q → q ≠ p := fun q hq e => absurd hpg (by rw [← e]; exact not_lt.2 hq)
  have hw : ∀ q, q ≠ p → (writeTo g p ((g.v p).map fun t => t + d)).v q = g.v q := fun q hq => Function.update_of_ne hq _ _
  have hwp : ((writeTo g p ((g.v p).map fun t => t + d)).v cl.tau).get = fun k => (g.v cl.tau).get k + d := by
    rw [hb.tau, hxt]; unfold writeTo; simp only [Function.update_self]; rfl
  have hsc : ∃ k < (cl.asm g).NLayers, (cl.asm g).scale k ≠ 1 := by
    obtain ⟨l, hl, hl'⟩ := hs
    refine ⟨l, by show l < cl.I.NLayers; rw [hb.I, hI]; exact hl, ?_⟩
    show (g.v cl.scale).get l ≠ 1
    rw [hb.gscale, hI]
    show O.scale l ≠ 1
    rw [(Args.optics_spec hacc hO).scale l hl]
    unfold scale
    intro h0
    exact hl' (by linarith)
  have hasm : cl.asm (writeTo g p ((g.v p).map fun t => t + d))
      = { ({ cl.asm g with tauArr := fun k => (cl.asm g).tauArr k + d } : AsmIn) with
          omega := ((writeTo g p ((g.v p).map fun t => t + d)).v cl.omegaS).get } := by
    unfold Closure.asm
    rw [hwp, hw _ (hne _ hb.tau0.1), hw _ (hne _ hb.mu.1), hw _ (hne _ hb.M_inv.1), hw _ (hne _ hb.W.1), hw _ (hne _ hb.scale.1)]
    rfl
  have := eval_shift (cl.asm g) cl.S d hd hsc tau ht anti
  unfold Closure.u0 Closure.fluxUp
  rw [hasm]
  exact this

/-! ## Writing to `mu_arr` and `f_arr` -/

theorem corrFrom_returns {T I : NTIn} (hN : 0 < I.N) (hTN : T.N = I.N) {tau phi : A1 ℝ} (anti : Bool) (l : ℕ → ℕ) (ht : tau.n ≠ 0)
    (h : I.N ≠ 1 ∨ phi.n = 1) :
    Spec.Returns3 (corrFrom T I tau phi anti l) (2 * I.N) tau.n phi.n (fun i t p =>
      T.tmsVal anti i (l t) (T.st (l t) (tau.get t)) (nuVal (T.muArr i) (phi.get p) (-T.mu0) T.phi0)
        + if i < I.N then 0
          else I.imsFac (nuVal (-I.mu (i - I.N)) (phi.get p) (-I.mu0) I.phi0) * imsChi anti (I.mu (i - I.N)) I.scaledMu0 (tau.get t)) := by
  obtain ⟨A, h1, h2, h3, h4, h5⟩ := T.tms_returns (by omega) phi anti l ht
  obtain ⟨B, g1, g2, g3, g4, g5⟩ := I.ims_returns (tau := tau) anti h
  unfold corrFrom
  rw [h1, g1]
  simp only [bind, Except.bind, g2, g4, h4, bdim_self, and_self, if_true]
  refine ⟨_, rfl, h2.trans (by rw [hTN]), h3, rfl, fun i hi t ht p hp => ?_⟩
  simp only
  split_ifs with hin
  · rw [h5 i (by omega) t ht p hp, add_zero]
  · rw [h5 i (by omega) t ht p hp, bix_of_lt (by omega), bix_of_lt hp, g5 (i - I.N) (by omega) t ht p hp]

/-- The difference between the corrected intensities in two memories that differ only in what the TMS correction reads. -/
theorem u_differ {cl : Closure} {n : NTIn} (hn : cl.nt = some n) (hof : cl.onlyFlux = false) {g g' : Heap} (hasm : cl.asm g' = cl.asm g)
    (hims : cl.imsIn g' n = cl.imsIn g n) (hN : 0 < n.N) (hIN : cl.I.N = n.N) {t ph : ℝ} (hck : (cl.asm g).checkTau ⟨1, fun _ => t⟩ = .ok ()) :
    ∃ U U', cl.u g ⟨1, fun _ => t⟩ ⟨1, fun _ => ph⟩ false = .ok U ∧ cl.u g' ⟨1, fun _ => t⟩ ⟨1, fun _ => ph⟩ false = .ok U' ∧
      U'.get 0 0 0 - U.get 0 0 0 = cl.I.rescale *
        ((cl.tmsIn g' n).tmsVal false 0 ((cl.asm g).layer t) ((cl.tmsIn g' n).st ((cl.asm g).layer t) t)
            (nuVal ((cl.tmsIn g' n).muArr 0) ph (-n.mu0) n.phi0)
          - (cl.tmsIn g n).tmsVal false 0 ((cl.asm g).layer t) ((cl.tmsIn g n).st ((cl.asm g).layer t) t)
            (nuVal ((cl.tmsIn g n).muArr 0) ph (-n.mu0) n.phi0)) := by
  obtain ⟨X, hX, hx0, hx1, hx2, -⟩ := (cl.asm g).u_plain cl.S ⟨1, fun _ => ph⟩ hck
  obtain ⟨C, hC, c0, c1, c2, hCv⟩ := corrFrom_returns (T := cl.tmsIn g n) (I := cl.imsIn g n) hN rfl (tau := ⟨1, fun _ => t⟩)
    (phi := ⟨1, fun _ => ph⟩) false (fun _ => (cl.asm g).layer t) one_ne_zero (Or.inr rfl)
  obtain ⟨D, hD, d0, d1, d2, hDv⟩ := corrFrom_returns (T := cl.tmsIn g' n) (I := cl.imsIn g n) hN rfl (tau := ⟨1, fun _ => t⟩)
    (phi := ⟨1, fun _ => ph⟩) false (fun _ => (cl.asm g).layer t) one_ne_zero (Or.inr rfl)
  have hNN : (cl.asm g).N = (cl.imsIn g n).N := hIN
  have add : ∀ Y : A3 ℝ, Y.d0 = 2 * (cl.imsIn g n).N → Y.d1 = 1 → Y.d2 = 1 → addSqueezed cl.I.rescale X Y
      = .ok ⟨X.d0, X.d1, X.d2, fun i t p => X.get i t p + cl.I.rescale * Y.get i t p⟩ := fun Y y0 y1 y2 => by
    unfold addSqueezed
    rw [if_pos ⟨hx0.trans (by rw [hNN, y0]), hx1.trans y1.symm, hx2.trans y2.symm⟩]
  refine ⟨⟨X.d0, X.d1, X.d2, fun i t p => X.get i t p + cl.I.rescale * C.get i t p⟩,
    ⟨X.d0, X.d1, X.d2, fun i t p => X.get i t p + cl.I.rescale * D.get i t p⟩, ?_, ?_, ?_⟩
  · rw [u_nt hn, hof, if_neg (by simp), hX]; simp only [bind, Except.bind]; rw [hC]; exact add C c0 c1 c2
  · rw [u_nt hn, hof, if_neg (by simp), hasm, hX, hims]; simp only [bind, Except.bind]; rw [hD]; exact add D d0 d1 d2
  simp only
  have hNi : 0 < (cl.imsIn g n).N := hN
  rw [hCv 0 (by omega) 0 one_pos 0 one_pos, hDv 0 (by omega) 0 one_pos 0 one_pos]
  beta_reduce
  rw [if_pos hNi]
  simp only [add_zero]
  show _ + cl.I.rescale * NTIn.tmsVal _ _ _ _ _ (nuVal _ ph (-n.mu0) n.phi0) - (_ + cl.I.rescale * NTIn.tmsVal _ _ _ _ _ (nuVal _ ph (-n.mu0) n.phi0)) = _
  ring

/-- A caller's memory with an array for `tau_arr` at address 0 and one for `f_arr` at address 1. -/
noncomputable def sharedHeap : Heap :=
  ⟨fun k => if k = 0 then ⟨2, fun k => (k : ℝ) + 1⟩ else ⟨2, fun _ => 1 / 8⟩, fun _ => ⟨0, 0, fun _ _ => 0⟩, 2, 0⟩

/-- The call `demoNT 1 x` with these two arrays, and lists for the others. -/
noncomputable def sharedArgs (x : ℝ) : CallArgs :=
  ⟨.arr 0, .lit (demoNT 1 x).omega, .lit (demoNT 1 x).leg, .lit (demoNT 1 x).s, .arr 1, demoNT 1 x⟩

theorem shared_args (x : ℝ) : argsOf (sharedArgs x) sharedHeap = demoNT 1 x := rfl

theorem shared_valid (x : ℝ) : Valid (sharedArgs x) sharedHeap := ⟨two_pos, trivial, trivial, trivial, one_lt_two⟩

theorem shared_apart (x : ℝ) : LegApart (sharedArgs x) := ⟨fun p hp => (by cases hp), fun p hp => (by cases hp)⟩

/-- The bracket of the TMS correction for `demoNT 1 x` with the truncated fraction `f`. -/
theorem demoNT_tmsB {x r : ℝ} {n : NTIn} (H : NTSpec refExt (demoNT 1 x) r n) (T : NTIn)
    (hT : T.omegaS = n.omegaS ∧ T.I0div4pi = n.I0div4pi ∧ T.mu0 = n.mu0 ∧ T.NLegAll = n.NLegAll ∧ T.wLegAll = n.wLegAll ∧ T.NLeg = n.NLeg ∧ T.wLeg = n.wLeg)
    (nu : ℝ) : r * T.tmsB 0 1 nu = 21 / 29 / (4 * Real.pi) * (x / (x + T.muArr 0)) * ((1 + 3 / 2 * nu) / (1 - T.f 1) - 1) := by
  obtain ⟨t1, t2, t3, t4, t5, t6, t7⟩ := hT
  have hl : 1 < (demoNT 1 x).tauArr.n := one_lt_two
  have hw : (demoNT 1 x).omega.get 1 ≠ 0 := by simp [demoNT, demo]
  have e1 : legSeries n.NLegAll (n.wLegAll 1) nu = 1 + 3 / 2 * nu := by
    unfold legSeries
    rw [H.NLegAll, show (demoNT 1 x).leg.c = 2 from rfl, sum_range_succ, sum_range_one, H.wLegAll 1 hl 0 hw, H.wLegAll 1 hl 1 hw, legendreP_zero, legendreP_one]
    simp [leg, demoNT, demo]; norm_num
  have e2 : legSeries n.NLeg (n.wLeg 1) nu = 1 := by
    unfold legSeries
    rw [H.NLeg, show nLeg (demoNT 1 x) = 1 from rfl, sum_range_one, H.wLeg 1 hl 0 hw, legendreP_zero]
    unfold legStar
    rw [demoNT_peak one_lt_two]
    simp [leg]; norm_num
  unfold NTIn.tmsB
  rw [t1, t2, t3, t4, t5, t6, t7, e1, e2, H.omegaS 1 hl, demoNT_omegaStar x one_lt_two, H.mu0]
  have := H.I0
  rw [show (demoNT 1 x).I0 = 1 from rfl] at this
  rw [if_neg one_ne_zero, show (demoNT 1 x).mu0 = x from rfl]
  linear_combination (21 / 29 * (x / (x + T.muArr 0)) * ((1 + 3 / 2 * nu) / (1 - T.f 1) - 1)) * this

theorem nuVal_perp (m x : ℝ) : nuVal m (1 + Real.pi / 2) (-x) 1 = -(m * x) := by
  unfold nuVal
  rw [show (1 : ℝ) - (1 + Real.pi / 2) = -(Real.pi / 2) by ring, Real.cos_neg, Real.cos_pi_div_two]
  ring

/-- What is needed of the call with shared arrays. -/
theorem shared_call (F : Finset ℝ) (J : Junk) : ∃ (x : ℝ) (cl : Closure) (g : Heap), x ∉ F ∧ 0 < x ∧ x ≤ 1 ∧ WellPosed refExt (demoNT 1 x) ∧
    pydisortMem refExt J (sharedArgs x) sharedHeap = (.ok cl, g) ∧ cl.muArr ≠ 1 ∧
    (g.v cl.muArr).get 0 = node refExt (demoNT 1 1) 0 ∧ g.v 1 = ⟨2, fun _ => 1 / 8⟩ ∧
    ∀ g' : Heap, (∀ q, q ≠ 1 → q ≠ cl.muArr → g'.v q = g.v q) → g'.m = g.m →
      ∃ U U', cl.u g ⟨1, fun _ => 3 / 2⟩ ⟨1, fun _ => 1 + Real.pi / 2⟩ false = .ok U ∧
        cl.u g' ⟨1, fun _ => 3 / 2⟩ ⟨1, fun _ => 1 + Real.pi / 2⟩ false = .ok U' ∧
        ∃ X, 0 < X ∧ U'.get 0 0 0 - U.get 0 0 0 = X *
          (x / (x + (g'.v cl.muArr).get 0) * ((1 - 3 / 2 * ((g'.v cl.muArr).get 0 * x)) / (1 - (g'.v 1).get 1) - 1)
            - x / (x + node refExt (demoNT 1 1) 0) * ((1 - 3 / 2 * (node refExt (demoNT 1 1) 0 * x)) / (1 - 1 / 8) - 1)) := by
  obtain ⟨x, R, hR, hxF, hx0, hx1, hwp, hS, hres⟩ := demoNT_call one_pos (by norm_num) F J
  have hc := demoNT_corrected (n := 1) one_pos x
  obtain ⟨n, hn, H⟩ := ntSpec hR hc
  obtain ⟨-, O, r, -, -, hI0, -, hof0, -⟩ := pydisort_ok hR
  obtain ⟨y, g0, hcv, ⟨e, h1, h2⟩ | ⟨R', cl, h1, h2, g1, hnv, hnm, ht, hff, hgr, hb⟩⟩ :=
    mem_result (E := refExt) (J := J) (shared_valid x) (shared_apart x)
  · rw [shared_args, hR] at h1; cases h1
  rw [shared_args, hR] at h1
  cases h1
  rcases hrun : pydisortMem refExt J (sharedArgs x) sharedHeap with ⟨o, g⟩
  rw [hrun] at h2 hgr hb
  dsimp only at h2 hgr hb
  subst h2
  have hyt : y.tau = 0 := hcv.tau 0 rfl
  have hyf : y.f = 1 := hcv.f 1 rfl
  have hgt : g.v 0 = (demoNT 1 x).tauArr := by
    rw [← hyt, hgr.v y.tau (by rw [hnv]; exact hcv.tauLt), ht]; rfl
  have hgf : g.v 1 = (demoNT 1 x).fArr := by
    rw [← hyf, hgr.v y.f (by rw [hnv]; exact hcv.fLt), hff]; rfl
  have hasm := asm_eq hb (by rw [hyt, hgt]; rfl)
  have htms := tmsIn_eq hb (by rw [hyt, hgt]; rfl) (by rw [hyf, hgf]; rfl) hn
  have hnle : 2 ≤ g1.nv := by rw [hnv]; exact hcv.grows.nv
  have hmuA : (g.v cl.muArr).get 0 = node refExt (demoNT 1 1) 0 := by
    rw [(hb.gnt n hn).2.2.2.2.1, H.muArr, stream_up (by rw [demoNT_nHalf]; exact one_pos)]; rfl
  refine ⟨x, cl, g, hxF, hx0, hx1, hwp, hrun, (by have := hb.muArr; omega), hmuA, hgf, fun g' hv hm => ?_⟩
  have hne : ∀ q, g1.nv ≤ q → q ≠ 1 := fun q hq => by omega
  have hkeep : ∀ q, g1.nv ≤ q ∧ q ≠ cl.muArr → g'.v q = g.v q := fun q hq => hv q (hne q hq.1) hq.2
  have hos : g'.v cl.omegaS = g.v cl.omegaS := by
    rcases hb.omegaS with ho | ho
    · rw [hn] at ho; cases ho
    · exact hkeep _ ho
  have het : g'.v cl.tau = g.v cl.tau := hv _ (by rw [hb.tau, hyt]; exact zero_ne_one) (by
    rw [hb.tau, hyt]; have := hb.muArr; omega)
  have hasm' : cl.asm g' = cl.asm g := by
    unfold Closure.asm
    rw [hos, het, hkeep _ hb.tau0, hkeep _ hb.mu, hkeep _ hb.M_inv, hkeep _ hb.W, hkeep _ hb.scale, hm]
  have hims : cl.imsIn g' n = cl.imsIn g n := by unfold Closure.imsIn; rw [hkeep _ hb.mu]
  have htms' : cl.tmsIn g' n = { n with muArr := (g'.v cl.muArr).get, f := (g'.v 1).get } := by
    have : cl.tmsIn g' n = { cl.tmsIn g n with muArr := (g'.v cl.muArr).get, f := (g'.v 1).get } := by
      unfold Closure.tmsIn
      rw [hos, het, hkeep _ hb.tau0, hkeep _ hb.mu, hkeep _ hb.M_inv, hkeep _ hb.thick, hkeep _ hb.scale, hm, hb.f, hyf]
    rw [this, htms]
  have hN : nHalf (demoNT 1 x) = 1 := demoNT_nHalf x
  have hnN : n.N = 1 := by rw [H.N, hN]
  have hlay : (cl.asm g).layer (3 / 2) = 1 := by
    rw [hasm]
    show R.I.layer (3 / 2) = 1
    refine (C21_layer_lookup hR (by simp [demoNT, demo]; norm_num) 1).2 ⟨one_lt_two, Or.inr ?_, ?_⟩ <;> simp [demoNT, demo] <;> norm_num
  have hck : (cl.asm g).checkTau ⟨1, fun _ => 3 / 2⟩ = .ok () := by
    rw [hasm]
    show R.I.checkTau ⟨1, fun _ => 3 / 2⟩ = .ok ()
    have hT : R.I.tauArr (R.I.NLayers - 1) = 2 := by rw [hI0]; show ((1 : ℕ) : ℝ) + 1 = 2; norm_num
    unfold AsmIn.checkTau
    rw [hT, if_neg]
    rintro (⟨_, _, hk⟩ | ⟨_, _, hk⟩) <;> norm_num at hk
  have hIN : cl.I.N = n.N := by rw [hb.I, hnN, hI0]; rfl
  obtain ⟨U, U', hU, hU', hd⟩ := u_differ (hb.nt.trans hn) (hb.onlyFlux.trans hof0) hasm' hims (by omega) hIN (ph := 1 + Real.pi / 2) hck
  refine ⟨U, U', hU, hU', ?_⟩
  have hmu : node refExt (demoNT 1 x) 0 = node refExt (demoNT 1 1) 0 := rfl
  have hmpos : 0 < node refExt (demoNT 1 1) 0 := by rw [← hmu]; exact (node_pos hwp.gauss (by rw [hN]; exact one_pos)).1
  have hmuA0 : n.muArr 0 = node refExt (demoNT 1 1) 0 := by rw [H.muArr, stream_up (by rw [hN]; exact one_pos), hmu]
  have hf1 : n.f 1 = 1 / 8 := by rw [H.f 1 one_lt_two, demoNT_peak one_lt_two]
  have hval : ∀ T : NTIn, T.N = n.N → T.NLayers = n.NLayers → ∀ nu, T.tmsVal false 0 1 (T.st 1 (3 / 2)) nu
      = T.tmsB 0 1 nu * (Real.exp (-T.st 1 (3 / 2) / T.mu0) - Real.exp ((T.st 1 (3 / 2) - T.tau0 2) / T.mu 0 - T.tau0 2 / T.mu0)) := fun T h1 h2 nu => by
    unfold NTIn.tmsVal NTIn.tmsOwn NTIn.Rpos
    rw [h1, h2, hnN, H.NLayers, show (demoNT 1 x).tauArr.n = 2 from rfl]
    simp
  set Y := Real.exp (-n.st 1 (3 / 2) / n.mu0) - Real.exp ((n.st 1 (3 / 2) - n.tau0 2) / n.mu 0 - n.tau0 2 / n.mu0) with hYdef
  have hY : 0 < Y := by
    rw [hYdef, sub_pos, Real.exp_lt_exp, H.mu0, H.mu, hmu, show (demoNT 1 x).mu0 = x from rfl]
    have hst : n.st 1 (3 / 2) - n.tau0 2 < 0 := by
      unfold NTIn.st
      rw [H.scale 1 one_lt_two, H.tauArr]
      unfold scale
      rw [demoNT_peak one_lt_two]
      simp [demoNT, demo]; norm_num
    have q1 := div_neg_of_neg_of_pos hst hmpos
    have q2 : (n.st 1 (3 / 2) - n.tau0 2) / x < 0 := div_neg_of_neg_of_pos hst hx0
    rw [sub_div] at q2
    rw [neg_div]
    linarith
  refine ⟨21 / 29 / (4 * Real.pi) * Y, by have := Real.pi_pos; positivity, ?_⟩
  rw [hd, hlay, htms, htms', hval n rfl rfl, hval { n with muArr := (g'.v cl.muArr).get, f := (g'.v 1).get } rfl rfl, hb.I]
  have hnu : ∀ m, nuVal m (1 + Real.pi / 2) (-n.mu0) n.phi0 = -(m * x) := fun m => by rw [H.mu0, H.phi0]; exact nuVal_perp m x
  show R.I.rescale * (NTIn.tmsB { n with muArr := (g'.v cl.muArr).get, f := (g'.v 1).get } 0 1 (nuVal ((g'.v cl.muArr).get 0) (1 + Real.pi / 2) (-n.mu0) n.phi0) * Y
    - n.tmsB 0 1 (nuVal (n.muArr 0) (1 + Real.pi / 2) (-n.mu0) n.phi0) * Y) = _
  rw [hnu, hnu]
  have b1 := demoNT_tmsB H { n with muArr := (g'.v cl.muArr).get, f := (g'.v 1).get } ⟨rfl, rfl, rfl, rfl, rfl, rfl, rfl⟩ (-((g'.v cl.muArr).get 0 * x))
  have b2 := demoNT_tmsB H n ⟨rfl, rfl, rfl, rfl, rfl, rfl, rfl⟩ (-(n.muArr 0 * x))
  dsimp only at b1
  rw [hf1, hmuA0] at b2
  rw [hmuA0]
  linear_combination Y * b1 - Y * b2

/-- Setting the entries of the returned `mu_arr` to zero in place (`mu_arr[:] = 0`) changes the corrected intensity that `u` returns. -/
theorem C103_mu_false (J : Junk) : ∃ c h, Valid c h ∧ LegApart c ∧ WellPosed refExt (argsOf c h) ∧ ∃ cl g, pydisortMem refExt J c h = (.ok cl, g) ∧
    ∃ (tau phi : A1 ℝ) (U U' : A3 ℝ), cl.u g tau phi false = .ok U ∧ cl.u (writeTo g cl.muArr ((g.v cl.muArr).map fun _ => 0)) tau phi false = .ok U' ∧
      U'.get 0 0 0 ≠ U.get 0 0 0 := by
  obtain ⟨x, cl, g, -, hx0, hx1, hwp, hrun, hne, hmuA, hgf, hall⟩ := shared_call ∅ J
  have hmpos : 0 < node refExt (demoNT 1 1) 0 := (node_pos (a := demoNT 1 x) hwp.gauss (by rw [demoNT_nHalf]; exact one_pos)).1
  refine ⟨_, _, shared_valid x, shared_apart x, hwp, cl, g, hrun, ?_⟩
  obtain ⟨U, U', hU, hU', X, hX, hd⟩ := hall (writeTo g cl.muArr ((g.v cl.muArr).map fun _ => 0)) (fun q _ hq => Function.update_of_ne hq _ _) rfl
  refine ⟨_, _, U, U', hU, hU', fun e => ?_⟩
  have e1 : ((writeTo g cl.muArr ((g.v cl.muArr).map fun _ => 0)).v cl.muArr).get 0 = 0 := by
    unfold writeTo; simp only [Function.update_self]; rfl
  have e2 : ((writeTo g cl.muArr ((g.v cl.muArr).map fun _ => 0)).v 1).get 1 = 1 / 8 := by
    unfold writeTo; simp only [Function.update_of_ne hne.symm, hgf]
  rw [e, sub_self, e1, e2] at hd
  have hz := (mul_eq_zero.1 hd.symm).resolve_left hX.ne'
  set m := node refExt (demoNT 1 1) 0
  rw [add_zero, div_self hx0.ne'] at hz
  have h3 : x / (x + m) < 1 := (div_lt_one (by positivity)).2 (by linarith)
  have h4 : 0 < x / (x + m) := by positivity
  have h6 : 0 < x / (x + m) * (m * x) := by positivity
  have h7 : (1 - 3 / 2 * (m * x)) / (1 - 1 / 8) - 1 = (1 - 12 * (m * x)) / 7 := by ring
  rw [h7] at hz
  norm_num at hz
  linarith

/-- Setting the entries of the caller's `f_arr` to zero in place after the call (`f_arr[:] = 0`) changes the corrected intensity that `u` returns. -/
theorem C103_f_false (J : Junk) : ∃ c h p, Valid c h ∧ LegApart c ∧ WellPosed refExt (argsOf c h) ∧ c.f = .arr p ∧ ∃ cl g, pydisortMem refExt J c h = (.ok cl, g) ∧
    ∃ (tau phi : A1 ℝ) (U U' : A3 ℝ), cl.u g tau phi false = .ok U ∧ cl.u (writeTo g p ((g.v p).map fun _ => 0)) tau phi false = .ok U' ∧
      U'.get 0 0 0 ≠ U.get 0 0 0 := by
  obtain ⟨x, cl, g, hxF, hx0, hx1, hwp, hrun, hne, hmuA, hgf, hall⟩ := shared_call {2 / (3 * node refExt (demoNT 1 1) 0)} J
  have hmpos : 0 < node refExt (demoNT 1 1) 0 := (node_pos (a := demoNT 1 x) hwp.gauss (by rw [demoNT_nHalf]; exact one_pos)).1
  refine ⟨_, _, 1, shared_valid x, shared_apart x, hwp, rfl, cl, g, hrun, ?_⟩
  obtain ⟨U, U', hU, hU', X, hX, hd⟩ := hall (writeTo g 1 ((g.v 1).map fun _ => 0)) (fun q hq _ => Function.update_of_ne hq _ _) rfl
  refine ⟨_, _, U, U', hU, hU', fun e => ?_⟩
  have e1 : ((writeTo g 1 ((g.v 1).map fun _ => 0)).v cl.muArr).get 0 = node refExt (demoNT 1 1) 0 := by
    unfold writeTo; simp only [Function.update_of_ne hne]; exact hmuA
  have e2 : ((writeTo g 1 ((g.v 1).map fun _ => 0)).v 1).get 1 = 0 := by
    unfold writeTo; simp only [Function.update_self]; rfl
  rw [e, sub_self, e1, e2] at hd
  have hz := (mul_eq_zero.1 hd.symm).resolve_left hX.ne'
  set m := node refExt (demoNT 1 1) 0
  have h4 : 0 < x / (x + m) := by positivity
  rw [← mul_sub] at hz
  have h5 := (mul_eq_zero.1 hz).resolve_left h4.ne'
  apply hxF
  rw [mem_singleton, eq_div_iff (by positivity)]
  norm_num at h5
  linarith

/-- The hypotheses of the theorems above can be met, with corrections, delta-M scaling and arrays that the caller can write to. -/
example (J : Junk) : ∃ c h cl g, Valid c h ∧ LegApart c ∧ pydisortMem refExt J c h = (.ok cl, g) ∧ Corrected (argsOf c h) ∧ (∃ p, c.tau = .arr p) ∧
    (∃ p, c.f = .arr p) ∧ ∃ l < (argsOf c h).tauArr.n, (argsOf c h).omega.get l * peak (argsOf c h) l ≠ 0 := by
  obtain ⟨x, cl, g, -, -, -, -, hrun, -⟩ := shared_call ∅ J
  refine ⟨_, _, cl, g, shared_valid x, shared_apart x, hrun, demoNT_corrected (n := 1) one_pos x, ⟨0, rfl⟩, ⟨1, rfl⟩, 0, two_pos, ?_⟩
  rw [shared_args, demoNT_peak two_pos]
  simp [demoNT, demo]

end Pydisort
