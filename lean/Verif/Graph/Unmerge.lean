import Verif.Graph.Merge

/-
Helper lemmas: what `_IdentifyVertices` does, and when `_RestoreVertex` undoes it.
-/
namespace Verif
open Function
namespace Graph

/-- The effect of the retargeting loop. -/
def retarget (g : Graph) (K : List Nat) (u : Nat) : Graph :=
  { g with E := fun a => if twin a ∈ K then { g.E a with nbr := u } else g.E a }

theorem retarget_links {g rot} (h : Links g rot) (K : List Nat) (u : Nat) : Links (g.retarget K u) rot :=
  h.congr (g' := g.retarget K u) rfl rfl
    (fun a b => by show ERec.link (if _ then _ else _) b = _; split <;> cases b <;> rfl) (fun _ _ => rfl)

theorem retarget_vSize (g : Graph) (K u) : (g.retarget K u).vSize = g.vSize := rfl
theorem retarget_eSize (g : Graph) (K u) : (g.retarget K u).eSize = g.eSize := rfl
theorem withStack_vSize (g : Graph) (s) : (g.withStack s).vSize = g.vSize := rfl
theorem withStack_eSize (g : Graph) (s) : (g.withStack s).eSize = g.eSize := rfl
theorem retarget_V (g : Graph) (K u) : (g.retarget K u).V = g.V := rfl

theorem retarget_nil (g : Graph) (u : Nat) : g.retarget [] u = g := by simp [retarget]

theorem updE_noop {g : Graph} {e : Nat} {b : Bool} {x : Nat} (h : (g.E e).link b = x) :
    g.updE e (·.setLink b x) = g := by
  unfold updE
  have : (g.E e).setLink b x = g.E e := by
    subst h; cases b <;> rfl
  simp only [this, update_eq_self]
theorem updV_noop {g : Graph} {v : Nat} {b : Bool} {x : Nat} (h : (g.V v).link b = x) :
    g.updV v (·.setLink b x) = g := by
  unfold updV
  have : (g.V v).setLink b x = g.V v := by
    subst h; cases b <;> rfl
  simp only [this, update_eq_self]

theorem ext' {g h : Graph} (hs : SameBut g h) (hE : ∀ a b, (h.E a).link b = (g.E a).link b)
    (hV : ∀ w b, (h.V w).link b = (g.V w).link b) : h = g := by
  have e1 : h.E = g.E := funext fun a => ERec.ext_link (hE a) (hs.nbr a) (hs.eflags a)
  have e2 : h.V = g.V := funext fun w => VRec.ext_link (hV w) (hs.index w) (hs.vflags w)
  have := hs.N; have := hs.M; have := hs.arcCap; have := hs.holes; have := hs.holesCap
  have := hs.stack; have := hs.stackCap; have := hs.flags
  cases g; cases h; simp_all

theorem unmerge_nil {g rot} (h : Links g rot) {u v : Nat} {A B : List Nat}
    (hu : u < g.vSize) (hv : v < g.vSize) (hru : rot u = A ++ B) (hrv : rot v = []) :
    g.unmerge u v (endIn true A) 0 0 (endIn false B) = some g := by
  have h0 := h.zero_not_mem u
  rw [hru, List.mem_append, not_or] at h0
  have hnu : (A ++ B).Nodup := hru ▸ h.nodup u
  have hvl : ∀ b, (g.V v).link b = 0 := fun b => by rw [h.vlink v b hv, hrv]; simp [endIn]
  have hgap : g.closeGap u (endIn true A) (endIn false B) = some g := by
    unfold closeGap
    by_cases hA : A = []
    · rw [if_neg (by simp [hA, endIn])]
      by_cases hB : B = []
      · rw [if_neg (by simp [hB, endIn])]
        have hz : ∀ b, (g.V u).link b = 0 := fun b => by
          rw [h.vlink u b hu, hru, hA, hB]; simp [endIn]
        rw [setArc_eq hu, updV_noop (hz _)]
        simp only [Option.bind_eq_bind, Option.bind_some]
        rw [setArc_eq hu, updV_noop (hz _)]
      · have hz : endIn false B ≠ 0 := fun hh => hB ((endIn_zero_iff h0.2).1 hh)
        have hmB := endIn_mem hz
        have hm : endIn false B ∈ rot u := by rw [hru]; simp [hmB]
        rw [if_pos hz, setAdj_eq (h.arc _ _ hm).2, updE_noop]
        · simp only [Option.bind_eq_bind, Option.bind_some]
          rw [setArc_eq hu, updV_noop]
          rw [h.vlink u _ hu, hru, hA]; rfl
        · rw [h.elink u true _ hm, hru, hA, List.nil_append,
            nextIn_eq_zero_iff (nodup_dir (List.nodup_append.1 hnu).2.1) (fun hh => h0.2 (mem_dir.1 hh))
              (mem_dir.2 hmB)]
          simp [endIn]
    · have hz : endIn true A ≠ 0 := fun hh => hA ((endIn_zero_iff h0.1).1 hh)
      have hmA := endIn_mem hz
      have hm : endIn true A ∈ rot u := by rw [hru]; simp [hmA]
      have hnext : (g.E (endIn true A)).link false = endIn false B := by
        rw [h.elink u false _ hm, hru, dir_false, nextIn_app_end hmA (List.nodup_append.1 hnu).1 h0.1,
          if_pos rfl]
        rfl
      rw [if_pos hz, setAdj_eq (h.arc _ _ hm).2, updE_noop hnext]
      simp only [Option.bind_eq_bind, Option.bind_some]
      by_cases hB : B = []
      · rw [if_neg (by simp [hB, endIn]), setArc_eq hu, updV_noop]
        rw [h.vlink u _ hu, hru, hB, List.append_nil]
      · have hzB : endIn false B ≠ 0 := fun hh => hB ((endIn_zero_iff h0.2).1 hh)
        have hmB := endIn_mem hzB
        have hm' : endIn false B ∈ rot u := by rw [hru]; simp [hmB]
        rw [if_pos hzB, setAdj_eq (h.arc _ _ hm').2, updE_noop]
        rw [h.elink u true _ hm', hru, dir_true, List.reverse_append,
          nextIn_app_end (by simpa using hmB) (by simpa using (List.nodup_append.1 hnu).2.1)
            (by simpa using h0.2), if_pos (by simp [endIn])]
        rfl
  unfold unmerge
  rw [hgap]
  simp only [Option.bind_eq_bind, Option.bind_some]
  rw [setArc_eq hv, updV_noop (hvl _)]
  simp only [Option.bind_some]
  rw [setArc_eq hv, updV_noop (hvl _)]
  simp [clearPrev]
  cases g.eSize <;> simp [giveBackLoop]

theorem setArc_ex {g : Graph} {w : Nat} (b : Bool) (x : Nat) (h : w < g.vSize) :
    ∃ g', g.setArc w b x = some g' ∧ SameBut g g' ∧ g'.E = g.E ∧
      ∀ w' b', (g'.V w').link b' = if w' = w ∧ b' = b then x else (g.V w').link b' := by
  refine ⟨_, setArc_eq h b x, sameBut_setLinkV g w b x, rfl, ?_⟩
  intro w' b'
  rw [updV_V]
  by_cases h1 : w' = w <;> by_cases h2 : b' = b <;> simp [h1, h2]

theorem setAdj_ex {g : Graph} {e : Nat} (b : Bool) (x : Nat) (h : e < g.eSize) :
    ∃ g', g.setAdj e b x = some g' ∧ SameBut g g' ∧ g'.V = g.V ∧
      ∀ a b', (g'.E a).link b' = if a = e ∧ b' = b then x else (g.E a).link b' := by
  refine ⟨_, setAdj_eq h b x, sameBut_setLinkE g e b x, rfl, ?_⟩
  intro w' b'
  rw [updE_E]
  by_cases h1 : w' = e <;> by_cases h2 : b' = b <;> simp [h1, h2]

theorem unmerge_one {g rot} (h : Links g rot) {u v k : Nat} (huv : u ≠ v)
    (hu : u < g.vSize) (hv : v < g.vSize) (hrv : rot v = [k])
    (hk : (g.E (twin k)).nbr = v) (htk : twin k < g.eSize) :
    ∃ gs, (g.retarget [k] u).splice u v (endIn true (rot u)) 0 = some gs ∧
      ∀ s, (gs.withStack s).unmerge u v (endIn true (rot u)) k k 0 = some (g.withStack s) := by
  have hkm : k ∈ rot v := by simp [hrv]
  have hka := h.arc _ _ hkm
  have hk0 : k ≠ 0 := by omega
  have h0 := h.zero_not_mem u
  have hkl : ∀ b, (g.E k).link b = 0 := by
    intro b; rw [h.elink v b k hkm, hrv]; cases b <;> simp
  have hvl : ∀ b, (g.V v).link b = k := fun b => by rw [h.vlink v b hv, hrv]; cases b <;> simp [endIn]
  have hrl : ∀ a b, ((g.retarget [k] u).E a).link b = (g.E a).link b := by
    intro a b
    show ERec.link (if _ then _ else _) b = _
    split <;> cases b <;> rfl
  have hrn : ∀ a, ((g.retarget [k] u).E a).nbr = if a = twin k then u else (g.E a).nbr := by
    intro a
    show ERec.nbr (if _ then _ else _) = _
    simp only [List.mem_singleton, twin_eq_iff]
    split <;> rfl
  have hrf : ∀ a, ((g.retarget [k] u).E a).flags = (g.E a).flags := by
    intro a
    show ERec.flags (if _ then _ else _) = _
    split <;> rfl
  have hL := retarget_links h [k] u
  have hV0 : (g.retarget [k] u).V = g.V := rfl
  have hvs : (g.retarget [k] u).vSize = g.vSize := rfl
  have hes : (g.retarget [k] u).eSize = g.eSize := rfl
  obtain ⟨gs, hgs, hs, hE, hV, hz0⟩ := splice_spec (A := rot u) (B := []) hL huv hu hv (by simp) hrv (by simp)
  rw [show endIn false [] = 0 from rfl] at hgs
  refine ⟨gs, hgs, ?_⟩
  intro s
  have hu1 : u < (gs.withStack s).vSize := by rw [withStack_vSize, hs.vSize]; exact hu
  have hv1 : v < (gs.withStack s).vSize := by rw [withStack_vSize, hs.vSize]; exact hv
  have hk1 : k < (gs.withStack s).eSize := by rw [withStack_eSize, hs.eSize]; exact hka.2
  have ht1 : twin k < (gs.withStack s).eSize := by rw [withStack_eSize, hs.eSize]; exact htk
  have hsb : ∀ g1, SameBut (gs.withStack s) g1 → g1.N = g.N ∧ g1.M = g.M ∧ g1.arcCap = g.arcCap ∧
      g1.holes = g.holes ∧ g1.holesCap = g.holesCap ∧ g1.stack = s ∧ g1.stackCap = g.stackCap ∧
      g1.flags = g.flags ∧ (∀ a, (g1.E a).nbr = if a = twin k then u else (g.E a).nbr) ∧
      (∀ a, (g1.E a).flags = (g.E a).flags) ∧ (∀ w, (g1.V w).index = (g.V w).index) ∧
      (∀ w, (g1.V w).flags = (g.V w).flags) := by
    intro g1 h1
    refine ⟨h1.N.trans hs.N, h1.M.trans hs.M, h1.arcCap.trans hs.arcCap, h1.holes.trans hs.holes,
      h1.holesCap.trans hs.holesCap, h1.stack, h1.stackCap.trans hs.stackCap, h1.flags.trans hs.flags,
      fun a => (h1.nbr a).trans ((hs.nbr a).trans (hrn a)),
      fun a => (h1.eflags a).trans ((hs.eflags a).trans (hrf a)),
      fun w => (h1.index w).trans (hs.index w), fun w => (h1.vflags w).trans (hs.vflags w)⟩
  have hE0 : (gs.withStack s).E = gs.E := rfl
  have hVs : (gs.withStack s).V = gs.V := rfl
  generalize gs.withStack s = t0 at *
  -- closing the gap in u's list
  obtain ⟨t1, ht, hs1, hE1, hV1⟩ : ∃ t1, t0.closeGap u (endIn true (rot u)) 0 = some t1 ∧ SameBut t0 t1 ∧
      (∀ a b, a ≠ k → (t1.E a).link b = (g.E a).link b) ∧
      (∀ w b, (t1.V w).link b = if w = v then 0 else (g.V w).link b) ∧
      (t1.E k).link false = 0 := by
    rcases eq_or_ne (rot u) [] with hA | hA
    · have e0 : endIn true (rot u) = 0 := by rw [hA]; rfl
      obtain ⟨t1, ht, hs1, hE1, hV1⟩ := setArc_ex (g := t0) (w := u) false 0 hu1
      obtain ⟨t2, ht2, hs2, hE2, hV2⟩ := setArc_ex (g := t1) (w := u) true 0 (by rw [hs1.vSize]; exact hu1)
      refine ⟨t2, ?_, hs1.trans hs2, ?_, ?_, ?_⟩
      · rw [closeGap, e0, if_neg (by simp), if_neg (by simp), ht]
        simp only [Option.bind_eq_bind, Option.bind_some, ht2]
      · intro a b ha
        rw [hE2, hE1, hE0]
        by_cases ha0 : a = 0
        · rw [ha0, hz0]; exact hrl 0 b
        · rw [hE a b ha0, if_neg, if_neg, hrl]
          · cases b <;> simpa [endIn] using ha
          · cases b <;> simp [side, endIn, hA, ha0]
      · intro w b
        rw [hV2, hV1, hVs, hV, hV0]
        by_cases hwv : w = v
        · subst hwv; simp [Ne.symm huv]
        · by_cases hwu : w = u
          · subst hwu
            have : (g.V w).link b = 0 := by rw [h.vlink w b hu, hA]; simp [endIn]
            rw [this]; cases b <;> simp
          · simp [hwv, hwu]
      · rw [hE2, hE1, hE0, hE k false hk0, if_neg (by simp [side, e0, hk0]), if_pos (by simp [endIn])]
        simp [side, endIn]
    · generalize hp : endIn true (rot u) = p
      have hp0 : p ≠ 0 := fun hh => hA ((endIn_zero_iff h0).1 (hp.trans hh))
      have hpm : p ∈ rot u := hp ▸ endIn_mem (hp ▸ hp0)
      have hpk : p ≠ k := fun hh => huv (h.disj _ _ _ hpm (hh ▸ hkm))
      have hpa := h.arc _ _ hpm
      have hpl : (g.E p).link false = 0 := by
        rw [h.elink u false p hpm, dir_false, nextIn_eq_zero_iff (h.nodup u) h0 hpm]; exact hp
      have hul : (g.V u).link true = p := by rw [h.vlink u true hu, hp]
      have hp1 : p < t0.eSize := by
        have := (hsb t0 (SameBut.refl t0)).2.2.1
        simp only [Graph.eSize, this]; exact hpa.2
      obtain ⟨t1, ht, hs1, hV1, hE1⟩ := setAdj_ex (g := t0) (e := p) false 0 hp1
      obtain ⟨t2, ht2, hs2, hE2, hV2⟩ := setArc_ex (g := t1) (w := u) true p (by rw [hs1.vSize]; exact hu1)
      refine ⟨t2, ?_, hs1.trans hs2, ?_, ?_, ?_⟩
      · rw [closeGap, if_pos hp0, ht]
        simp only [Option.bind_eq_bind, Option.bind_some, ne_eq, not_true_eq_false, if_false, ht2]
      · intro a b ha
        rw [hE2, hE1, hE0]
        by_cases ha0 : a = 0
        · rw [if_neg (by simp [ha0, Ne.symm hp0]), ha0, hz0]; exact hrl 0 b
        · split
          · next hh => rw [hh.1, hh.2, hpl]
          · next hh =>
            rw [hE a b ha0, if_neg, if_neg, hrl]
            · cases b <;> simpa [endIn] using ha
            · cases b
              · simp only [side, Bool.not_false, Bool.false_eq_true, if_false, hp]
                exact fun hh' => hh ⟨hh', rfl⟩
              · simp [side, endIn, ha0]
      · intro w b
        rw [hV2, hV1, hVs, hV, hV0]
        by_cases hwv : w = v
        · subst hwv; simp [Ne.symm huv]
        · by_cases hwu : w = u
          · subst hwu
            cases b
            · simp [side, hA, hwv]
            · simp [side, hwv, hul]
          · simp [hwv, hwu]
      · rw [hE2, hE1, if_neg (by simp [Ne.symm hpk]), hE0, hE k false hk0, if_neg, if_pos (by simp [endIn])]
        · simp [side, endIn]
        · simp only [side, Bool.not_false, Bool.false_eq_true, if_false, hp]; exact Ne.symm hpk
  obtain ⟨hV1, hk2⟩ := hV1
  obtain ⟨t2, ht2, hs2, hE2, hV2⟩ := setArc_ex (g := t1) (w := v) false k (by rw [hs1.vSize]; exact hv1)
  obtain ⟨t3, ht3, hs3, hE3, hV3⟩ := setArc_ex (g := t2) (w := v) true k
    (by rw [hs2.vSize, hs1.vSize]; exact hv1)
  obtain ⟨t4, ht4, hs4, hV4, hE4⟩ := setAdj_ex (g := t3) (e := k) true 0
    (by rw [hs3.eSize, hs2.eSize, hs1.eSize]; exact hk1)
  obtain ⟨t5, ht5, hs5, hV5, hE5⟩ := setAdj_ex (g := t4) (e := k) true 0
    (by rw [hs4.eSize, hs3.eSize, hs2.eSize, hs1.eSize]; exact hk1)
  have ht6 : twin k < t5.eSize := by
    rw [hs5.eSize, hs4.eSize, hs3.eSize, hs2.eSize, hs1.eSize]; exact ht1
  have hgb : giveBackLoop t5.eSize t5 v k k =
      some (t5.updE (twin k) fun r => { r with nbr := v }) := by
    obtain ⟨n, hn⟩ : ∃ n, t5.eSize = n + 1 := ⟨t5.eSize - 1, by omega⟩
    rw [hn, giveBackLoop, if_neg hk0, setNbr_eq ht6]
    simp only [Option.bind_eq_bind, Option.bind_some, if_true]
    cases n <;> simp [giveBackLoop]
  obtain ⟨c1, c2, c3, c4, c5, c6, c7, c8, c9, c10, c11, c12⟩ :=
    hsb t5 (hs1.trans (hs2.trans (hs3.trans (hs4.trans hs5))))
  rw [unmerge, ht]
  simp only [Option.bind_eq_bind, Option.bind_some, ht2, ht3, clearPrev, ne_eq, hk0, not_false_eq_true,
    if_true, ht4, ht5, hgb]
  congr 1
  apply ext'
  · refine ⟨c1, c2, c3, c4, c5, c6, c7, c8, ?_, ?_, c11, c12⟩
    · intro a
      rw [updE_E]
      by_cases h1 : a = twin k
      · rw [if_pos h1]; show v = (g.E a).nbr; rw [h1, hk]
      · rw [if_neg h1, c9, if_neg h1]; rfl
    · intro a
      rw [updE_E]
      split
      · exact c10 a
      · exact c10 a
  · intro a b
    have : ((t5.updE (twin k) fun r => { r with nbr := v }).E a).link b = (t5.E a).link b := by
      rw [updE_E]; split <;> cases b <;> rfl
    rw [this, hE5, hE4, hE3, hE2]
    show _ = (g.E a).link b
    by_cases h1 : a = k
    · subst h1
      cases b
      · simp [hk2, hkl]
      · simp [hkl]
    · simp [h1, hE1]
  · intro w b
    rw [updE_V, hV5, hV4, hV3, hV2, hV1]
    show _ = (g.V w).link b
    by_cases h1 : w = v
    · subst h1; cases b <;> simp [hvl]
    · simp [h1]


theorem restoreHidden_done (g : Graph) (n bottom : Nat) (h : g.stack.length ≤ bottom) :
    restoreHidden n g bottom = some (g, .ok) := by
  cases n <;> simp [restoreHidden] <;> omega

/-- Lists after the edges between v and the marked vertices were hidden: those of u are as before,
those of v are the unmarked ones. -/
theorem removeAll_apart {g rot} (h : WInv g rot) {u v : Nat} (huv : u ≠ v) (m : Nat → Bool)
    (hadj : ∀ e ∈ rot u, (g.E e).nbr ≠ v) (hloop : ∀ e ∈ rot v, (g.E e).nbr ≠ v) :
    removeAll ((rot v).filter m) rot u = rot u ∧
    removeAll ((rot v).filter m) rot v = (rot v).filter (fun e => !m e) := by
  constructor
  · unfold removeAll
    rw [List.filter_eq_self]
    intro a ha
    simp only [decide_eq_true_eq, List.mem_map, List.mem_filter, not_exists, not_and]
    rintro x ⟨hx, -⟩ hd
    rcases div_eq_cases hd with rfl | rfl
    · exact huv (h.links.disj _ _ _ ha hx)
    · exact hadj a ha (by have := h.owner v _ hx; rwa [twin_twin] at this)
  · unfold removeAll
    apply List.filter_congr
    intro a ha
    have key : a / 2 ∈ ((rot v).filter m).map (· / 2) ↔ m a = true := by
      simp only [List.mem_map, List.mem_filter]
      constructor
      · rintro ⟨x, ⟨hx, hm⟩, hd⟩
        rcases div_eq_cases hd with rfl | rfl
        · exact hm
        · exact absurd (by have := h.owner v _ hx; rwa [twin_twin] at this) (hloop a ha)
      · intro hm; exact ⟨a, ⟨ha, hm⟩, rfl⟩
    by_cases hm : m a = true
    · simp only [hm, Bool.not_true, decide_eq_false_iff_not, not_not]; exact key.2 hm
    · rw [Bool.not_eq_true] at hm
      simp only [hm, Bool.not_false, decide_eq_true_eq]
      rw [key]; simp [hm]

theorem identifyApart_spec {g rot} (h : WInv g rot) {u v : Nat} {A B : List Nat} (huv : u ≠ v)
    (hu : 1 ≤ u ∧ u < g.vSize) (hv : 1 ≤ v ∧ v < g.vSize) (hru : rot u = A ++ B)
    (hadj : ∀ e ∈ rot u, (g.E e).nbr ≠ v) (hloop : ∀ e ∈ rot v, (g.E e).nbr ≠ v)
    (hsimple : ((rot u).map fun e => (g.E e).nbr).Nodup)
    (hclear : ∀ w, 1 ≤ w → w < g.vSize → (g.V w).flags % 2 = 0)
    (hroom : g.stack.length + (rot v).length + 7 ≤ g.stackCap)
    {m : Nat → Bool} (hm : m = fun e => decide ((g.E e).nbr ∈ (rot u).map fun e => (g.E e).nbr))
    {H K : List Nat} (hH : H = (rot v).filter m) (hK : K = (rot v).filter (fun e => !m e)) :
    ∃ g', g.identifyApart u v (endIn false B) = some (g', .ok) ∧
      WInv g' (mergeRot (removeAll H rot) u v (A ++ K ++ B)) ∧
      g'.N = g.N ∧ g'.M = g.M ∧ g'.arcCap = g.arcCap ∧ g'.stackCap = g.stackCap ∧
      g'.holes = g.holes ∧ g'.flags = g.flags ∧
      g'.stack = v :: u :: endIn true A :: endIn false K :: endIn true K :: endIn false B ::
        g.stack.length :: (H.reverse ++ g.stack) ∧
      (∀ e, (g'.E e).nbr = if twin e ∈ K then u else (g.E e).nbr) ∧
      (∀ e, (g'.E e).flags = (g.E e).flags) ∧
      (∀ w, (g'.V w).index = (g.V w).index ∧ (g'.V w).flags = (g.V w).flags) ∧
      ((K = [] ∨ K.length = 1 ∧ B = []) → ∀ bottom, bottom ≤ g.stack.length →
        (g'.withStack (v :: u :: endIn true A :: endIn false K :: endIn true K :: endIn false B ::
          bottom :: (H.reverse ++ g.stack))).restoreVertex = restoreHidden g.stack.length g bottom) := by
  set S := (rot u).map fun e => (g.E e).nbr with hS
  have hpos : ∀ w e, e ∈ rot w → 1 ≤ (g.E e).nbr := fun w e he => (h.links.vert _ _ (h.twins w e he)).1
  have hSlt : ∀ w ∈ S, 1 ≤ w ∧ w < g.vSize := by
    intro w hw
    obtain ⟨e, he, rfl⟩ := List.mem_map.1 hw
    exact ⟨hpos _ _ he, nbr_lt h he⟩
  -- the three loops
  have h1 := markLoop_spec (rot u) [] g.eSize h rfl (h.links.length_le u) hsimple
    (fun e he => hclear _ (hpos _ _ he) (nbr_lt h he))
  rw [← hS] at h1
  set gm := g.relabel (markF S) with hgm
  have hWm : WInv gm rot := h.relabel _
  have htw : ∀ e ∈ rot v, twin e ∉ rot v := by
    intro e he ht
    have := h.owner v _ ht
    rw [twin_twin] at this
    exact hloop e he this
  have hmm : ∀ e ∈ rot v, m e = decide ((gm.V (gm.E e).nbr).flags % 2 = 1) := by
    intro e he
    rw [hm]
    apply decide_eq_decide.2
    show _ ↔ (markF S (g.E e).nbr (g.V (g.E e).nbr).flags) % 2 = 1
    unfold markF
    have := hclear _ (hpos _ _ he) (nbr_lt h he)
    split
    · next hin => exact ⟨fun _ => by omega, fun _ => hin⟩
    · next hin => exact ⟨fun hh => absurd hh hin, fun hh => by omega⟩
  have hlenH : H.length ≤ (rot v).length := by rw [hH]; exact List.length_filter_le _ _
  obtain ⟨g1, hg1, hW1, hs1, hrest⟩ := hideMarkedLoop_spec (rot v) [] g.eSize m hWm (by simp)
    htw (h.links.length_le v) hmm (by
      rw [← hH]; show g.stack.length + _ ≤ g.stackCap; omega)
  rw [← hH] at hW1 hs1 hrest
  obtain ⟨hru1, hrv1⟩ := removeAll_apart h huv m hadj hloop
  rw [← hH] at hru1 hrv1
  rw [← hK] at hrv1
  set rot1 := removeAll H rot with hrot1
  have hvs1 : g1.vSize = g.vSize := hs1.vSize
  have hes1 : g1.eSize = g.eSize := hs1.eSize
  have hS1 : ((rot u).map fun e => (g1.E e).nbr) = S := by
    rw [hS]; apply List.map_congr_left; intro e _; exact hs1.nbr e
  have h3 := unmarkLoop_spec (rot u) [] g1.eSize hW1 hru1 (by rw [hes1]; exact h.links.length_le u)
  rw [hS1] at h3
  set g2 := g1.relabel (unmarkF S) with hg2
  have hW2 : WInv g2 rot1 := hW1.relabel _
  have hV2 : ∀ w, (g2.V w).flags = (g.V w).flags := by
    intro w
    show unmarkF S w (g1.V w).flags = _
    rw [hs1.vflags]
    show unmarkF S w (markF S w (g.V w).flags) = _
    unfold unmarkF markF
    by_cases hw : w ∈ S
    · have := hclear w (hSlt w hw).1 (hSlt w hw).2
      simp only [hw, if_true]; omega
    · simp only [hw, if_false]
  have hst2 : g2.stack = H.reverse ++ g.stack := hs1.stack
  have hcap2 : g2.stackCap = g.stackCap := hs1.stackCap
  have hvs2 : g2.vSize = g.vSize := hvs1
  have hes2 : g2.eSize = g.eSize := hes1
  have hn2 : ∀ e, (g2.E e).nbr = (g.E e).nbr := fun e => hs1.nbr e
  have hf2 : ∀ e, (g2.E e).flags = (g.E e).flags := fun e => hs1.eflags e
  have hi2 : ∀ e, (g2.V e).index = (g.V e).index := fun e => hs1.index e
  have hsc2 : g2.N = g.N ∧ g2.M = g.M ∧ g2.arcCap = g.arcCap ∧ g2.holes = g.holes ∧ g2.flags = g.flags :=
    ⟨hs1.N, hs1.M, hs1.arcCap, hs1.holes, hs1.flags⟩
  -- the record on the stack
  have hfirst : ∀ {r : Nat → List Nat} {t : Graph} (w : Nat) (b : Bool), Links t r → w < t.vSize →
      t.getArc w b = some (endIn b (r w)) := by
    intro r t w b hL hw
    rw [getArc_eq hw, hL.vlink w b hw]
  set T := v :: u :: endIn true A :: endIn false K :: endIn true K :: endIn false B ::
        g.stack.length :: (H.reverse ++ g.stack) with hT
  set g3 := g2.withStack T with hg3
  have hW3 : WInv g3 rot1 := hW2.withStack T
  have hr4 := retargetLoop_spec (u := u) K [] g3.eSize hW3.links (by rw [hrv1]; rfl)
    (fun e he => (hW3.links.arc _ _ (hW3.twins v e (by rw [hrv1]; exact he))).2)
    (by have := hW3.links.length_le v; rwa [hrv1] at this)
  set g4 := g3.retarget K u with hg4
  have hL4 : Links g4 rot1 := retarget_links hW3.links K u
  obtain ⟨g5, hg5, hs5, hL5⟩ := splice_links hL4 huv ⟨hu.1, by show _ < g2.vSize; rw [hvs2]; exact hu.2⟩
    (by show _ < g2.vSize; rw [hvs2]; exact hv.2) (hru1.trans hru) hrv1
  have hn4 : ∀ a, (g4.E a).nbr = if twin a ∈ K then u else (g2.E a).nbr := by
    intro a
    show ERec.nbr (if _ then _ else _) = _
    split <;> rfl
  have hf4 : ∀ a, (g4.E a).flags = (g2.E a).flags := by
    intro a
    show ERec.flags (if _ then _ else _) = _
    split <;> rfl
  have hpred : g2.predOf u (endIn false B) = some (endIn true A) := by
    unfold predOf
    have h0 := h.links.zero_not_mem u
    rw [hru, List.mem_append, not_or] at h0
    by_cases hB : B = []
    · rw [if_neg (by simp [hB, endIn]), hfirst u true hW2.links (by rw [hvs2]; exact hu.2), hru1, hru, hB,
        List.append_nil]
    · have hz : endIn false B ≠ 0 := fun hh => hB ((endIn_zero_iff h0.2).1 hh)
      have hmB := endIn_mem hz
      have hmu : endIn false B ∈ rot1 u := by rw [hru1, hru]; simp [hmB]
      have hnu : (A ++ B).Nodup := hru ▸ h.links.nodup u
      rw [if_pos hz, getAdj_eq (hW2.links.arc _ _ hmu).2, hW2.links.elink u true _ hmu, hru1, hru,
        dir_true, List.reverse_append,
        nextIn_app_end (by simpa using hmB) (by simpa using (List.nodup_append.1 hnu).2.1)
            (by simpa using h0.2), if_pos (by simp [endIn])]
      rfl
  have push' : ∀ (s : List Nat) (x : Nat), s.length < g.stackCap →
      (g2.withStack s).push x = some (g2.withStack (x :: s)) := by
    intro s x hs
    rw [push_eq (by rw [show (g2.withStack s).stackCap = g.stackCap from hcap2]; exact hs)]; rfl
  have hpa : ∀ s e b, (g2.withStack s).getAdj e b = g2.getAdj e b := fun _ _ _ => rfl
  have hpv : ∀ s e b, (g2.withStack s).getArc e b = g2.getArc e b := fun _ _ _ => rfl
  have hfv : ∀ b, g2.getArc v b = some (endIn b K) := by
    intro b
    rw [hfirst v b hW2.links (by rw [hvs2]; exact hv.2), hrv1]
  have hu1 : ∀ b, g.getArc u b = some (endIn b (rot u)) := fun b => hfirst u b h.links hu.2
  have hvm : gm.getArc v false = some (endIn false (rot v)) := hfirst v false hWm.links hv.2
  have hug1 : g1.getArc u false = some (endIn false (rot u)) := by
    rw [hfirst u false hW1.links (by rw [hvs1]; exact hu.2), hru1]
  have hl2 : g2.stack.length = H.length + g.stack.length := by rw [hst2]; simp
  refine ⟨g5, ?_, ?_, ?_, ?_, ?_, ?_, ?_, ?_, ?_, ?_, ?_, ?_, ?_⟩
  · unfold identifyApart
    simp only [Option.bind_eq_bind]
    rw [hu1 false, Option.bind_some, show endIn false (rot u) = (rot u).headD 0 from rfl, h1]
    simp only [Option.bind_some, ne_eq, not_true_eq_false, if_false]
    rw [hvm, Option.bind_some, show endIn false (rot v) = (rot v).headD 0 from rfl]
    rw [show gm.eSize = g.eSize from rfl, hg1, Option.bind_some, hug1, Option.bind_some,
      show endIn false (rot u) = (rot u).headD 0 from rfl, h3, Option.bind_some]
    rw [← withStack_self g2, push' _ _ (by omega), Option.bind_some]
    rw [show (g2.withStack (g.stack.length :: g2.stack)).predOf u (endIn false B) =
      some (endIn true A) from hpred]
    simp only [Option.bind_some]
    rw [push' _ _ (by simp; omega), Option.bind_some, hpv, hfv, Option.bind_some,
      push' _ _ (by simp; omega), Option.bind_some, hpv, hfv, Option.bind_some,
      push' _ _ (by simp; omega), Option.bind_some,
      push' _ _ (by simp; omega), Option.bind_some,
      push' _ _ (by simp; omega), Option.bind_some,
      push' _ _ (by simp; omega), Option.bind_some, hpv, hfv, Option.bind_some]
    rw [hst2]
    have : retargetLoop g3.eSize g3 u (endIn false K) = some g4 := hr4
    rw [← hT, ← hg3, this, Option.bind_some, hg5, Option.bind_some]
    rfl
  · have hmem : ∀ w e, e ∈ mergeRot rot1 u v (A ++ K ++ B) w →
        (e ∈ rot1 w ∧ w ≠ v) ∨ (w = u ∧ e ∈ K) := by
      intro w e he
      by_cases hwv : w = v
      · subst hwv; rw [mergeRot_v] at he; simp at he
      · by_cases hwu : w = u
        · subst hwu; rw [mergeRot_u huv] at he
          rw [hru1, hru]
          simp only [List.mem_append] at he ⊢
          tauto
        · rw [mergeRot_of_ne hwu hwv] at he; exact .inl ⟨he, hwv⟩
    have hmem' : ∀ w e, e ∈ rot1 w → w ≠ v → e ∈ mergeRot rot1 u v (A ++ K ++ B) w := by
      intro w e he hwv
      by_cases hwu : w = u
      · rw [hwu] at he ⊢
        rw [mergeRot_u huv]
        rw [hru1, hru] at he
        simp only [List.mem_append] at he ⊢
        tauto
      · rw [mergeRot_of_ne hwu hwv]; exact he
    refine ⟨hL5, ?_, ?_⟩
    · intro w e he
      rw [hs5.nbr, hn4, twin_twin]
      rcases hmem w e he with ⟨hh, hne⟩ | ⟨rfl, hh⟩
      · rw [if_neg]
        · exact hW2.owner w e hh
        · intro hk
          exact hne (hW2.links.disj _ _ _ hh (by rw [hrv1]; exact hk))
      · rw [if_pos hh]
    · intro w e he
      rw [hs5.nbr, hn4]
      split
      · next hk => rw [mergeRot_u huv]; simp [hk]
      · next hk =>
        obtain ⟨w0, hw0⟩ : ∃ w0, e ∈ rot1 w0 := by
          rcases hmem w e he with ⟨hh, -⟩ | ⟨-, hh⟩
          · exact ⟨w, hh⟩
          · exact ⟨v, by rw [hrv1]; exact hh⟩
        have ht := hW2.twins w0 e hw0
        apply hmem' _ _ ht
        intro hh
        rw [hh, hrv1] at ht
        exact hk ht
  · exact hs5.N.trans hsc2.1
  · exact hs5.M.trans hsc2.2.1
  · exact hs5.arcCap.trans hsc2.2.2.1
  · exact hs5.stackCap.trans hcap2
  · exact hs5.holes.trans hsc2.2.2.2.1
  · exact hs5.flags.trans hsc2.2.2.2.2
  · exact hs5.stack
  · intro e; rw [hs5.nbr, hn4, hn2]
  · intro e; rw [hs5.eflags, hf4, hf2]
  · intro w; exact ⟨(hs5.index w).trans (hi2 w), (hs5.vflags w).trans (hV2 w)⟩
  · intro hcase
    have hun : ∀ s, (g5.withStack s).unmerge u v (endIn true A) (endIn false K) (endIn true K) (endIn false B)
        = some (g2.withStack s) := by
      intro s
      rcases hcase with rfl | ⟨hlen, rfl⟩
      · have h4 : g4 = g3 := retarget_nil _ _
        have : g5 = g4 := by
          have hvv : g4.getArc v false = some 0 := by
            rw [hfirst v false hL4 (by show _ < g2.vSize; rw [hvs2]; exact hv.2), hrv1]; rfl
          unfold splice at hg5
          rw [hvv] at hg5
          simpa using hg5.symm
        rw [this, h4]
        have hL : Links (g3.withStack s) rot1 := (hW3.withStack s).links
        exact unmerge_nil hL (by show _ < g2.vSize; rw [hvs2]; exact hu.2)
          (by show _ < g2.vSize; rw [hvs2]; exact hv.2) (hru1.trans hru) hrv1
      · obtain ⟨k, rfl⟩ := List.length_eq_one_iff.1 hlen
        have hkm : k ∈ rot1 v := by rw [hrv1]; simp
        obtain ⟨gs, hgs, hres⟩ := unmerge_one hW3.links huv (by show _ < g2.vSize; rw [hvs2]; exact hu.2)
          (by show _ < g2.vSize; rw [hvs2]; exact hv.2) hrv1 (hW3.owner v k hkm)
          (hW3.links.arc _ _ (hW3.twins v k hkm)).2
        rw [hru1, hru, List.append_nil] at hgs hres
        have : gs = g5 := by
          rw [show endIn false [] = 0 from rfl] at hg5
          exact Option.some.inj (hgs.symm.trans hg5)
        rw [← this]
        exact hres s
    intro bottom hbot
    unfold restoreVertex
    rw [if_neg (by simp [Graph.withStack])]
    have pop' : ∀ x s, (g5.withStack (x :: s)).pop = some (x, g5.withStack s) := fun _ _ => rfl
    have pop2 : ∀ x s, (g2.withStack (x :: s)).pop = some (x, g2.withStack s) := fun _ _ => rfl
    simp only [pop', Option.bind_eq_bind, Option.bind_some]
    rw [if_pos (by omega), hun]
    simp only [pop2, Option.bind_some]
    rw [show (g2.withStack (H.reverse ++ g.stack)).stack.length = H.length + g.stack.length by
      simp [Graph.withStack]]
    rw [hg2, hrest (unmarkF S) g.stack g.stack.length bottom hbot]
    congr 1
    rw [hgm, relabel_relabel]
    show (g.relabel _).withStack g.stack = g
    rw [relabel_id]
    · rfl
    · intro w
      unfold unmarkF markF
      by_cases hw : w ∈ S
      · have := hclear w (hSlt w hw).1 (hSlt w hw).2
        simp only [hw, if_true]; omega
      · simp only [hw, if_false]

theorem neighborEdge_eq {g rot} (h : WInv g rot) {u v : Nat} (hu : 1 ≤ u ∧ u < g.vSize)
    (hv : 1 ≤ v) : g.neighborEdge u v = some (((rot u).find? fun e => (g.E e).nbr = v).getD 0) := by
  unfold neighborEdge
  rw [if_neg (by omega)]
  simp only [rdV, hu.2, if_true, Option.bind_eq_bind, Option.bind_some]
  rw [h.links.first hu.2]
  exact neighborEdgeLoop_suffix h.links v _ [] _ rfl (h.links.length_le u)

theorem identify_apart {g rot} (h : WInv g rot) {u v : Nat} (hu : 1 ≤ u ∧ u < g.vSize)
    (hv : 1 ≤ v) (hadj : ∀ e ∈ rot u, (g.E e).nbr ≠ v) (fuel before : Nat) :
    identify (fuel + 1) g u v before = g.identifyApart u v before := by
  rw [identify, neighborEdge_eq h hu hv]
  have : (rot u).find? (fun e => (g.E e).nbr = v) = none := by
    rw [List.find?_eq_none]; simpa using hadj
  simp [this]

/-- `_ContractEdge` when e is the only edge between its two ends. -/
theorem contract_spec {g rot} (h : WInv g rot) {u v e : Nat} {A B : List Nat} (huv : u ≠ v)
    (hru : rot u = A ++ e :: B) (hev : (g.E e).nbr = v)
    (hloop : ∀ e ∈ rot v, (g.E e).nbr ≠ v)
    (hsimple : ((rot u).map fun e => (g.E e).nbr).Nodup)
    (hclear : ∀ w, 1 ≤ w → w < g.vSize → (g.V w).flags % 2 = 0)
    (hroom : g.stack.length + (rot v).length + 7 ≤ g.stackCap)
    {m : Nat → Bool} (hm : m = fun a => decide ((g.E a).nbr ∈ (A ++ B).map fun e => (g.E e).nbr))
    {H K : List Nat} (hH : H = ((rot v).filter (· ≠ twin e)).filter m)
    (hK : K = ((rot v).filter (· ≠ twin e)).filter (fun e => !m e)) (fuel : Nat) :
    ∃ g0 g', (g.withStack (e :: g.stack)).hideEdge e = some g0 ∧ g0.stack = e :: g.stack ∧
      g0.restoreEdge e = some (g.withStack (e :: g.stack)) ∧
      contract (fuel + 2) g e = some (g', .ok) ∧
      WInv g' (mergeRot (removeAll H (removeRot e rot)) u v (A ++ K ++ B)) ∧
      g'.N = g.N ∧ g'.M = g.M ∧ g'.arcCap = g.arcCap ∧ g'.stackCap = g.stackCap ∧
      g'.holes = g.holes ∧ g'.flags = g.flags ∧
      g'.stack = v :: u :: endIn true A :: endIn false K :: endIn true K :: endIn false B ::
        (g.stack.length + 1) :: (H.reverse ++ e :: g.stack) ∧
      (∀ e, (g'.E e).nbr = if twin e ∈ K then u else (g.E e).nbr) ∧
      (∀ e, (g'.E e).flags = (g.E e).flags) ∧
      (∀ w, (g'.V w).index = (g.V w).index ∧ (g'.V w).flags = (g.V w).flags) ∧
      ((K = [] ∨ K.length = 1 ∧ B = []) → ∀ bottom, bottom ≤ g.stack.length + 1 →
        (g'.withStack (v :: u :: endIn true A :: endIn false K :: endIn true K :: endIn false B ::
          bottom :: (H.reverse ++ e :: g.stack))).restoreVertex =
            restoreHidden (g.stack.length + 1) g0 bottom) := by
  have he : e ∈ rot u := by rw [hru]; simp
  have har := h.links.arc _ _ he
  have htv : twin e ∈ rot v := hev ▸ h.twins u e he
  have hta := h.links.arc _ _ htv
  have hu := h.links.vert _ _ he
  have hv := h.links.vert _ _ htv
  have hlen1 : 1 ≤ (rot v).length := List.length_pos_of_mem htv
  obtain ⟨g0, hg0, hW0, hs0, hr0, hx0⟩ := (h.withStack (e :: g.stack)).hide he
  have hnd := h.links.nodup u
  rw [hru] at hnd
  have hnv := h.links.nodup v
  have htu : twin e ∉ rot u := fun hh => huv (h.links.disj _ _ _ hh htv)
  have hevn : e ∉ rot v := fun hh => huv (h.links.disj _ _ _ he hh)
  have hrv0 : removeRot e rot v = (rot v).filter (· ≠ twin e) := by
    unfold removeRot
    apply List.filter_congr
    intro a ha
    apply decide_eq_decide.2
    exact ⟨fun hh => hh.2, fun hh => ⟨fun h1 => hevn (h1 ▸ ha), hh⟩⟩
  have hru0 : removeRot e rot u = A ++ B := by
    have hf1 : ∀ L : List Nat, (∀ a ∈ L, a ∈ rot u) → e ∉ L →
        L.filter (fun a => a ≠ e ∧ a ≠ twin e) = L := by
      intro L hL he'
      rw [List.filter_eq_self]
      intro a ha
      simp only [decide_eq_true_eq]
      exact ⟨fun hh => he' (hh ▸ ha), fun hh => htu (hh ▸ hL a ha)⟩
    unfold removeRot
    rw [hru, List.filter_append, List.filter_cons_of_neg (by simp),
      hf1 A (fun a ha => by rw [hru]; simp [ha])
        (fun hh => (List.nodup_append.1 hnd).2.2 e hh e (by simp) rfl),
      hf1 B (fun a ha => by rw [hru]; simp [ha])
        (List.nodup_cons.1 (List.nodup_append.1 hnd).2.1).1]
  have hn0 : ∀ a, (g0.E a).nbr = (g.E a).nbr := fun a => hs0.nbr a
  have hvs : g0.vSize = g.vSize := hs0.vSize
  rw [hru, List.map_append, List.map_cons] at hsimple
  have hsim' : ((A ++ B).map fun e => (g.E e).nbr).Nodup ∧ (g.E e).nbr ∉ (A ++ B).map fun e => (g.E e).nbr := by
    have := (List.perm_middle (a := (g.E e).nbr) (l₁ := A.map fun e => (g.E e).nbr)
      (l₂ := B.map fun e => (g.E e).nbr)).nodup_iff.1 hsimple
    rw [List.nodup_cons, ← List.map_append] at this
    exact ⟨this.2, this.1⟩
  have hmap : (fun e => (g0.E e).nbr) = fun e => (g.E e).nbr := funext hn0
  have hlenf : ((rot v).filter (· ≠ twin e)).length + 1 ≤ (rot v).length := by
    have : ((rot v).filter (· ≠ twin e)).length < (rot v).length := by
      apply List.length_filter_lt_length_iff_exists.2
      exact ⟨twin e, htv, by simp⟩
    omega
  obtain ⟨g', hg', hW', e1, e2, e3, e4, e5, e6, e7, e8, e9, e10, e11⟩ := identifyApart_spec hW0 huv
    (by rw [hvs]; exact hu) (by rw [hvs]; exact hv) hru0
    (by
      intro a ha hh
      rw [hru0] at ha
      rw [hn0, ← hev] at hh
      exact hsim'.2 (hh ▸ List.mem_map_of_mem (f := fun e => (g.E e).nbr) ha))
    (by
      intro a ha
      rw [hn0]; exact hloop a (mem_removeRot.1 ha).1)
    (by rw [hru0, hmap]; exact hsim'.1)
    (by intro w h1 h2; rw [hs0.vflags]; exact hclear w h1 (by rwa [hvs] at h2))
    (by
      rw [hs0.stack, hs0.stackCap, hrv0]
      show (e :: g.stack).length + _ + 7 ≤ g.stackCap
      simp only [List.length_cons]; omega)
    (m := m) (by rw [hm, hru0, hmap]; funext a; simp only [hn0])
    (H := H) (K := K) (by rw [hH, hrv0]) (by rw [hK, hrv0])
  have hst : g0.stack = e :: g.stack := hs0.stack
  refine ⟨g0, g', hg0, hst, hr0, ?_, hW', e1.trans hs0.N, e2.trans hs0.M, e3.trans hs0.arcCap,
    e4.trans hs0.stackCap, e5.trans hs0.holes, e6.trans hs0.flags, ?_, ?_, ?_, ?_, ?_⟩
  · rw [contract, if_neg (by omega), getNbr_eq hta.2, getNbr_eq har.2, h.owner u e he, hev,
      next_eq h.links hru, push_eq (by omega)]
    simp only [Option.bind_eq_bind, Option.bind_some, hg0]
    rw [identify_apart hW0 (by rw [hvs]; exact hu) hv.1]
    · exact hg'
    · intro a ha hh
      rw [hru0] at ha
      rw [hn0, ← hev] at hh
      exact hsim'.2 (hh ▸ List.mem_map_of_mem (f := fun e => (g.E e).nbr) ha)
  · rw [e7, hst]; rfl
  · intro a; rw [e8, hn0]
  · intro a; rw [e9]; exact hs0.eflags a
  · intro w; rw [(e10 w).1, (e10 w).2]; exact ⟨hs0.index w, hs0.vflags w⟩
  · intro hc bottom hb
    have := e11 hc bottom (by rw [hst]; simpa using hb)
    rw [hst] at this
    exact this

end Graph
end Verif
