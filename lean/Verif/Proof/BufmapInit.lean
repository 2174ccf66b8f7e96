import Verif.Props.BufmapConc
/- What stays true once a key is in the table of the concurrent bufmap; who is told `init`. -/
namespace Starbow.BufmapConc
open Starbow.Probe Starbow.Cell Starbow.Spec

/-- One step seen from outside: what the goroutine was doing and does next. -/
inductive Eff (l s : Nat) (σ : State) (t : Nat) : State → Prop where
  | probe (id : Nat) (k : U64) (fn : CFn) (ini : Bool) (p : PPC) (h : σ.pc t = .uProbe id k fn ini p) (keys : Nat → U64) (p' : PPC) (ini' : Bool)
      (hp : probeStep l k σ.keys ini p = (keys, .go p' ini')) :
      Eff l s σ t { σ with keys := keys, pc := upd σ.pc t (.uProbe id k fn ini' p') }
  | found (id : Nat) (k : U64) (fn : CFn) (ini : Bool) (p : PPC) (h : σ.pc t = .uProbe id k fn ini p) (keys : Nat → U64) (x : Nat) (ini' : Bool)
      (hp : probeStep l k σ.keys ini p = (keys, .found x ini')) :
      Eff l s σ t { σ with keys := keys, pc := upd σ.pc t (.w k x ⟨id, fn, ini'⟩ .lock) }
  | full (id : Nat) (k : U64) (fn : CFn) (ini : Bool) (p : PPC) (h : σ.pc t = .uProbe id k fn ini p) (keys : Nat → U64)
      (hp : probeStep l k σ.keys ini p = (keys, .full)) :
      Eff l s σ t { σ with keys := keys, pc := upd σ.pc t .idle, rets := σ.rets ++ [(id, .outOfSlots)] }
  | wgo (k : U64) (x : Nat) (e : Entry) (p : WPC) (h : σ.pc t = .w k x e p) (c : Cells) (p' : WPC)
      (hw : wstep s t x e σ.cells p = some (c, .go p')) : Eff l s σ t { σ with cells := c, pc := upd σ.pc t (.w k x e p') }
  | wret (k : U64) (x : Nat) (e : Entry) (p : WPC) (h : σ.pc t = .w k x e p) (c : Cells) (err : Option Err)
      (hw : wstep s t x e σ.cells p = some (c, .ret err)) :
      Eff l s σ t { σ with cells := c, pc := upd σ.pc t .idle, rets := σ.rets ++ [(e.id, .ran err)] }
  | look (id : Nat) (k : U64) (buf : Bytes) (i : Nat) (h : σ.pc t = .gProbe id k buf i) (x : Nat) (hp : lookStep l k σ.keys i = .inl x) :
      Eff l s σ t { σ with pc := upd σ.pc t (.r id k buf x .load1) }
  | next (id : Nat) (k : U64) (buf : Bytes) (i : Nat) (h : σ.pc t = .gProbe id k buf i) (i' : Nat) (hp : lookStep l k σ.keys i = .inr (some i')) :
      Eff l s σ t { σ with pc := upd σ.pc t (.gProbe id k buf i') }
  | miss (id : Nat) (k : U64) (buf : Bytes) (i : Nat) (h : σ.pc t = .gProbe id k buf i) (hp : lookStep l k σ.keys i = .inr none) :
      Eff l s σ t { σ with pc := upd σ.pc t .idle, rets := σ.rets ++ [(id, .got false buf 0)] }
  | gone (id : Nat) (k : U64) (buf : Bytes) (x : Nat) (p : RPC) (h : σ.pc t = .r id k buf x p) : Eff l s σ t { σ with pc := upd σ.pc t .gone }
  | rgo (id : Nat) (k : U64) (buf : Bytes) (x : Nat) (p : RPC) (h : σ.pc t = .r id k buf x p) (p' : RPC) :
      Eff l s σ t { σ with pc := upd σ.pc t (.r id k buf x p') }
  | rdone (id : Nat) (k : U64) (buf : Bytes) (x : Nat) (p : RPC) (h : σ.pc t = .r id k buf x p) (b : Bytes) (d : Nat) :
      Eff l s σ t { σ with pc := upd σ.pc t .idle, rets := σ.rets ++ [(id, .got true b d)] }

theorem step_eff {l s : Nat} {σ σ' : State} {t : Nat} (hs : step l s σ t = some σ') : Eff l s σ t σ' := by
  unfold step at hs
  cases hpc : σ.pc t with
  | idle => rw [hpc] at hs; simp at hs
  | gone => rw [hpc] at hs; simp at hs
  | uProbe id k fn ini p =>
    rw [hpc] at hs
    simp only at hs
    rcases hp : probeStep l k σ.keys ini p with ⟨keys, res⟩
    rw [hp] at hs
    cases res with
    | go p' i => have hs := Option.some.inj hs; subst hs; exact .probe id k fn ini p hpc keys p' i hp
    | found x i => have hs := Option.some.inj hs; subst hs; exact .found id k fn ini p hpc keys x i hp
    | full => have hs := Option.some.inj hs; subst hs; exact .full id k fn ini p hpc keys hp
  | w k x e p =>
    rw [hpc] at hs
    simp only at hs
    cases hst : wstep s t x e σ.cells p with
    | none => rw [hst] at hs; simp at hs
    | some cr =>
      obtain ⟨c, r⟩ := cr
      rw [hst] at hs
      cases r with
      | go q => have hs := Option.some.inj hs; subst hs; exact .wgo k x e p hpc c q hst
      | ret err => have hs := Option.some.inj hs; subst hs; exact .wret k x e p hpc c err hst
  | gProbe id k buf i =>
    rw [hpc] at hs
    simp only at hs
    split at hs
    · next x hp => have hs := Option.some.inj hs; subst hs; exact .look id k buf i hpc x hp
    · next hp => have hs := Option.some.inj hs; subst hs; exact .miss id k buf i hpc hp
    · next i' hp => have hs := Option.some.inj hs; subst hs; exact .next id k buf i hpc i' hp
  | r id k buf x p =>
    rw [hpc] at hs
    simp only at hs
    split at hs
    · have hs := Option.some.inj hs; subst hs; exact .gone id k buf x p hpc
    · split at hs
      · next p' _ => have hs := Option.some.inj hs; subst hs; exact .rgo id k buf x p hpc p'
      · next g d _ => have hs := Option.some.inj hs; subst hs; exact .rdone id k buf x p hpc _ d

/-! ### Get finds what is there -/

/-- key `k` sits at its candidate `j`; calls from number `n` on find it -/
structure Known (l n : Nat) (k : U64) (j : Nat) (σ : State) : Prop where
  there : σ.keys (pos l k j) = k
  miss : ∀ id b d buf, (id, Ret.got false b d) ∈ σ.rets → σ.invs[id]? = some (.get k buf) → id < n
  probe : ∀ t id buf i, σ.pc t = .gProbe id k buf i → n ≤ id → i ≤ j

theorem known_start {l s : Nat} {σ : State} (h : Inv l s σ) {k : U64} {j : Nat} (hk : σ.keys (pos l k j) = k) :
    Known l σ.invs.length k j σ where
  there := hk
  miss := fun id _ _ _ hm _ => h.ids.dlt id (List.mem_map.mpr ⟨_, hm, rfl⟩)
  probe := by
    intro t id buf i hpc hid
    have := h.ids.lt t id (by unfold curOf; rw [hpc]; rfl)
    omega

theorem known_step {l s n : Nat} (hl : 0 < l) {k : U64} (h0 : k ≠ 0) {j : Nat} (hj : j ≤ maxReprobe) {σ σ' : State} (h : Inv l s σ)
    (hn : n ≤ σ.invs.length) (w : Known l n k j σ) (hs : Step l s σ σ') : Known l n k j σ' := by
  have hm := Props.BufmapConc.step_mono hl h hs
  have hthere : σ'.keys (pos l k j) = k := by rw [hm.1 _ (by rw [w.there]; exact h0)]; exact w.there
  have hrlt : ∀ id r, (id, r) ∈ σ.rets → id < σ.invs.length := fun id r hm => h.ids.dlt id (List.mem_map.mpr ⟨_, hm, rfl⟩)
  have old : ∀ id r buf, (id, r) ∈ σ.rets → σ'.invs[id]? = some (.get k buf) → σ.invs[id]? = some (.get k buf) := by
    intro id r buf hr hi
    obtain ⟨more, he⟩ := hm.2.1
    rw [he, List.getElem?_append_left (hrlt id r hr)] at hi
    exact hi
  refine ⟨hthere, ?_, ?_⟩
  · intro id b d buf hr hi
    by_cases hin : (id, Ret.got false b d) ∈ σ.rets
    · exact w.miss id b d buf hin (old id _ buf hin hi)
    · rcases Nat.lt_or_ge id n with hid | hid
      · exact hid
      exfalso
      cases hs with
      | call t op ht =>
        unfold call at hr
        cases op with
        | upd k' fn =>
          simp only at hr
          split at hr
          · simp only [List.mem_append, List.mem_singleton, Prod.mk.injEq] at hr
            rcases hr with hr | ⟨_, hr⟩
            · exact hin hr
            · simp at hr
          · exact hin hr
        | get k' b' => exact hin hr
      | step _ t hs =>
        cases step_eff hs with
        | probe id' k' fn ini p hpc keys p' ini' hp => exact hin hr
        | found id' k' fn ini p hpc keys x ini' hp => exact hin hr
        | full id' k' fn ini p hpc keys hp => simp at hr; exact hin hr
        | wgo k' x e p hpc c p' hw => exact hin hr
        | wret k' x e p hpc c err hw => simp at hr; exact hin hr
        | look id' k' buf' i hpc x hp => exact hin hr
        | next id' k' buf' i hpc i' hp => exact hin hr
        | gone id' k' buf' x p hpc => exact hin hr
        | rgo id' k' buf' x p hpc p' => exact hin hr
        | rdone id' k' buf' x p hpc b' d' => simp at hr; exact hin hr
        | miss id' k' buf' i hpc hp =>
          simp only [List.mem_append, List.mem_singleton, Prod.mk.injEq] at hr
          rcases hr with hr | ⟨e1, _⟩
          · exact hin hr
          · subst e1
            have ht := h.thr t
            rw [hpc] at ht
            have hi : σ.invs[id]? = some (.get k buf) := hi
            obtain ⟨ht1, ht2⟩ := ht
            rw [hi] at ht1
            injection (Option.some.inj ht1) with e1 e2
            subst e1; subst e2
            unfold lookStep at hp
            split at hp
            · simp at hp
            · next hne =>
              split at hp
              · have := w.probe t id buf i hpc hid
                have hij : i = j := by omega
                subst hij
                exact hne w.there
              · simp at hp
  · intro t' id buf i hpc' hid
    have keep : ∀ {t p}, upd σ.pc t p t' = .gProbe id k buf i → (t' = t → p = .gProbe id k buf i → i ≤ j) → i ≤ j := by
      intro t p hu hp
      by_cases he : t' = t
      · subst he; rw [upd_same] at hu; exact hp rfl hu
      · rw [upd_other _ _ he] at hu; exact w.probe t' id buf i hu hid
    cases hs with
    | call t op ht =>
      unfold call at hpc'
      cases op with
      | upd k' fn =>
        simp only at hpc'
        split at hpc'
        · exact w.probe t' id buf i hpc' hid
        · exact keep hpc' (by simp)
      | get k' b' =>
        refine keep hpc' ?_
        intro _ he
        injection he with _ _ _ e4
        omega
    | step _ t hs =>
      cases step_eff hs with
      | probe id' k' fn ini p hpc keys p' ini' hp => exact keep hpc' (by simp)
      | found id' k' fn ini p hpc keys x ini' hp => exact keep hpc' (by simp)
      | full id' k' fn ini p hpc keys hp => exact keep hpc' (by simp)
      | wgo k' x e p hpc c p' hw => exact keep hpc' (by simp)
      | wret k' x e p hpc c err hw => exact keep hpc' (by simp)
      | look id' k' buf' i hpc x hp => exact keep hpc' (by simp)
      | miss id' k' buf' i hpc hp => exact keep hpc' (by simp)
      | gone id' k' buf' x p hpc => exact keep hpc' (by simp)
      | rgo id' k' buf' x p hpc p' => exact keep hpc' (by simp)
      | rdone id' k' buf' x p hpc b' d' => exact keep hpc' (by simp)
      | next id' k' buf' i0 hpc i' hp =>
        refine keep hpc' ?_
        intro _ he
        injection he with e1 e2 e3 e4
        subst e1; subst e2; subst e3; subst e4
        have := w.probe t id' buf' i0 hpc hid
        unfold lookStep at hp
        split at hp
        · simp at hp
        · next hne =>
          split at hp
          · simp at hp
          · simp at hp
            have : i0 ≠ j := by rintro rfl; exact hne w.there
            omega

theorem known_steps {l s n : Nat} (hl : 0 < l) {k : U64} (h0 : k ≠ 0) {j : Nat} (hj : j ≤ maxReprobe) {σ σ' : State} (h : Inv l s σ)
    (hn : n ≤ σ.invs.length) (w : Known l n k j σ) (hs : Steps l s σ σ') : Known l n k j σ' := by
  induction hs with
  | refl => exact w
  | tail h1 h2 ih =>
    refine known_step hl h0 hj (inv_steps hl h h1) ?_ ih h2
    obtain ⟨_, ⟨more, hm⟩, _⟩ := Props.BufmapConc.steps_mono hl h h1
    rw [hm, List.length_append]; omega

/-! ### who is told init -/

/-- key `k` sits in its home slot; updates from number `n` on are not told `init` -/
structure Home (l n : Nat) (k : U64) (σ : State) : Prop where
  there : σ.keys (pos l k 0) = k
  probe : ∀ t id fn ini p, σ.pc t = .uProbe id k fn ini p → n ≤ id → ini = false ∧ p = .load 0
  write : ∀ t x e p, σ.pc t = .w k x e p → n ≤ e.id → e.init = false
  log : ∀ x e, (x, e) ∈ σ.cells.log → σ.keys x = k → n ≤ e.id → e.init = false

theorem home_start {l s : Nat} {σ : State} (h : Inv l s σ) {k : U64} (hk : σ.keys (pos l k 0) = k) :
    Home l σ.invs.length k σ where
  there := hk
  probe := by
    intro t id fn ini p hpc hid
    have := h.ids.lt t id (by unfold curOf; rw [hpc]; rfl)
    omega
  write := by
    intro t x e p hpc hid
    have := h.ids.lt t e.id (by unfold curOf; rw [hpc]; rfl)
    omega
  log := by
    intro x e hm _ hid
    have := inv_lt (h.logok x e hm).2.2
    omega

theorem wstep_log_cases {s t x : Nat} {e : Entry} {c c' : Cells} {p : WPC} {r : WRes} (h : wstep s t x e c p = some (c', r)) :
    c'.log = c.log ∨ c'.log = c.log ++ [(x, e)] := by
  unfold wstep at h
  split at h
  · split at h
    · have h := (Prod.mk.inj (Option.some.inj h)).1; subst h; exact .inl rfl
    · simp at h
  · have h := (Prod.mk.inj (Option.some.inj h)).1; subst h; exact .inl rfl
  · have h := (Prod.mk.inj (Option.some.inj h)).1; subst h; exact .inl rfl
  · have h := (Prod.mk.inj (Option.some.inj h)).1; subst h; exact .inl rfl
  · split at h
    · have h := (Prod.mk.inj (Option.some.inj h)).1; subst h; exact .inl rfl
    · have h := (Prod.mk.inj (Option.some.inj h)).1; subst h; exact .inl rfl
  · have h := (Prod.mk.inj (Option.some.inj h)).1; subst h; exact .inr rfl
  · have h := (Prod.mk.inj (Option.some.inj h)).1; subst h; exact .inl rfl
  · simp at h

theorem home_step {l s n : Nat} (hl : 0 < l) {k : U64} (h0 : k ≠ 0) {σ σ' : State} (h : Inv l s σ)
    (w : Home l n k σ) (hs : Step l s σ σ') : Home l n k σ' := by
  have hm := Props.BufmapConc.step_mono hl h hs
  have hthere : σ'.keys (pos l k 0) = k := by rw [hm.1 _ (by rw [w.there]; exact h0)]; exact w.there
  have hold : ∀ x e, (x, e) ∈ σ.cells.log → σ'.keys x = σ.keys x := fun x e hx => hm.1 x (h.logok x e hx).2.1
  have keepP : ∀ {t p t' id fn ini q}, upd σ.pc t p t' = .uProbe id k fn ini q → n ≤ id →
      (p = .uProbe id k fn ini q → ini = false ∧ q = .load 0) → ini = false ∧ q = .load 0 := by
    intro t p t' id fn ini q hu hid hp
    by_cases he : t' = t
    · subst he; rw [upd_same] at hu; exact hp hu
    · rw [upd_other _ _ he] at hu; exact w.probe t' id fn ini q hu hid
  have keepW : ∀ {t p t' x e q}, upd σ.pc t p t' = .w k x e q → n ≤ e.id →
      (p = .w k x e q → e.init = false) → e.init = false := by
    intro t p t' x e q hu hid hp
    by_cases he : t' = t
    · subst he; rw [upd_same] at hu; exact hp hu
    · rw [upd_other _ _ he] at hu; exact w.write t' x e q hu hid
  have keepL : ∀ {log : List (Nat × Entry)}, log = σ.cells.log → ∀ x e, (x, e) ∈ log → σ'.keys x = k → n ≤ e.id → e.init = false := by
    rintro log rfl x e hx hk hid
    rw [hold x e hx] at hk
    exact w.log x e hx hk hid
  have keepL' : ∀ {log : List (Nat × Entry)} {t k' y e' p}, σ.pc t = .w k' y e' p → (log = σ.cells.log ∨ log = σ.cells.log ++ [(y, e')]) →
      ∀ x e, (x, e) ∈ log → σ'.keys x = k → n ≤ e.id → e.init = false := by
    rintro log t k' y e' p hpc (hlog | hlog)
    · exact keepL hlog
    · intro x e hx hk hid
      rw [hlog, List.mem_append, List.mem_singleton] at hx
      rcases hx with hx | hx
      · exact keepL rfl x e hx hk hid
      · obtain ⟨rfl, rfl⟩ := Prod.mk.inj hx
        have ht := h.thr t
        rw [hpc] at ht
        obtain ⟨_, hk0, _, hkk⟩ := ht
        rw [hm.1 x (by rw [hkk]; exact hk0), hkk] at hk
        subst hk
        exact w.write t x e p hpc hid
  cases hs with
  | call t op ht =>
    unfold call
    cases op with
    | upd k' fn =>
      simp only
      split
      · exact ⟨w.there, w.probe, w.write, w.log⟩
      · refine ⟨w.there, fun t' id fn' ini p hu hid => keepP hu hid ?_, fun t' x e p hu hid => keepW hu hid (by simp), w.log⟩
        intro he
        injection he with _ _ _ e4 e5
        exact ⟨e4.symm, e5.symm⟩
    | get k' b =>
      exact ⟨w.there, fun t' id fn' ini p hu hid => keepP hu hid (by simp), fun t' x e p hu hid => keepW hu hid (by simp), w.log⟩
  | step _ t hs =>
    cases step_eff hs with
    | full id' k' fn ini p hpc keys hp =>
      exact ⟨hthere, fun t' id fn' ini p hu hid => keepP hu hid (by simp), fun t' x e p hu hid => keepW hu hid (by simp), keepL rfl⟩
    | wgo k' x e p hpc c p' hw =>
      refine ⟨hthere, fun t' id fn' ini p hu hid => keepP hu hid (by simp), fun t' x e p hu hid => keepW hu hid ?_, keepL' hpc (wstep_log_cases hw)⟩
      intro he
      injection he with e1 e2 e3 e4
      subst e1; subst e2; subst e3
      exact w.write t _ _ _ hpc hid
    | wret k' x e p hpc c err hw =>
      exact ⟨hthere, fun t' id fn' ini p hu hid => keepP hu hid (by simp), fun t' x e p hu hid => keepW hu hid (by simp),
        keepL' hpc (wstep_log_cases hw)⟩
    | look id' k' buf' i hpc x hp =>
      exact ⟨hthere, fun t' id fn' ini p hu hid => keepP hu hid (by simp), fun t' x e p hu hid => keepW hu hid (by simp), keepL rfl⟩
    | miss id' k' buf' i hpc hp =>
      exact ⟨hthere, fun t' id fn' ini p hu hid => keepP hu hid (by simp), fun t' x e p hu hid => keepW hu hid (by simp), keepL rfl⟩
    | next id' k' buf' i hpc i' hp =>
      exact ⟨hthere, fun t' id fn' ini p hu hid => keepP hu hid (by simp), fun t' x e p hu hid => keepW hu hid (by simp), keepL rfl⟩
    | gone id' k' buf' x p hpc =>
      exact ⟨hthere, fun t' id fn' ini p hu hid => keepP hu hid (by simp), fun t' x e p hu hid => keepW hu hid (by simp), keepL rfl⟩
    | rgo id' k' buf' x p hpc p' =>
      exact ⟨hthere, fun t' id fn' ini p hu hid => keepP hu hid (by simp), fun t' x e p hu hid => keepW hu hid (by simp), keepL rfl⟩
    | rdone id' k' buf' x p hpc b' d' =>
      exact ⟨hthere, fun t' id fn' ini p hu hid => keepP hu hid (by simp), fun t' x e p hu hid => keepW hu hid (by simp), keepL rfl⟩
    | probe id' k' fn ini p hpc keys p' ini' hp =>
      refine ⟨hthere, fun t' id fn' ini p hu hid => keepP hu hid ?_, fun t' x e p hu hid => keepW hu hid (by simp), keepL rfl⟩
      intro he
      injection he with e1 e2 e3 e4 e5
      subst e1; subst e2
      obtain ⟨f1, f2⟩ := w.probe t _ _ _ _ hpc hid
      subst f1; subst f2
      unfold probeStep at hp
      simp only [w.there, if_true] at hp
      simp at hp
    | found id' k' fn ini p hpc keys x ini' hp =>
      refine ⟨hthere, fun t' id fn' ini p hu hid => keepP hu hid (by simp), fun t' x e p hu hid => keepW hu hid ?_, keepL rfl⟩
      intro he
      injection he with e1 e2 e3 e4
      subst e1; subst e2; subst e3
      obtain ⟨f1, f2⟩ := w.probe t _ _ _ _ hpc hid
      subst f1; subst f2
      unfold probeStep at hp
      simp only [w.there, if_true] at hp
      simp at hp
      exact hp.2.2

theorem home_steps {l s n : Nat} (hl : 0 < l) {k : U64} (h0 : k ≠ 0) {σ σ' : State} (h : Inv l s σ)
    (w : Home l n k σ) (hs : Steps l s σ σ') : Home l n k σ' := by
  induction hs with
  | refl => exact w
  | tail h1 h2 ih => exact home_step hl h0 (inv_steps hl h h1) ih h2

/-- whoever stores a key is told `init` -/
structure Told (l : Nat) (σ : State) : Prop where
  cas : ∀ t id k fn ini i, σ.pc t = .uProbe id k fn ini (.cas i) → ini = true
  told : ∀ x, σ.keys x ≠ 0 → (∃ e, (x, e) ∈ σ.cells.log ∧ e.init = true) ∨ ∃ t e p, σ.pc t = .w (σ.keys x) x e p ∧ e.init = true

theorem told_init (l : Nat) : Told l init := ⟨by intro t id k fn ini i h; simp [init] at h, fun x hx => absurd rfl hx⟩

theorem told_step {l s : Nat} (hl : 0 < l) {σ σ' : State} (h : Inv l s σ) (w : Told l σ) (hs : Step l s σ σ') : Told l σ' := by
  have hm := Props.BufmapConc.step_mono hl h hs
  have keepC : ∀ {t p t' id k fn ini i}, upd σ.pc t p t' = .uProbe id k fn ini (.cas i) →
      (p = .uProbe id k fn ini (.cas i) → ini = true) → ini = true := by
    intro t p t' id k fn ini i hu hp
    by_cases he : t' = t
    · subst he; rw [upd_same] at hu; exact hp hu
    · rw [upd_other _ _ he] at hu; exact w.cas t' id k fn ini i hu
  -- the goroutine that moves was not writing
  have keepT : ∀ {t p}, (∀ k x e q, σ.pc t ≠ .w k x e q) → ∀ x, σ.keys x ≠ 0 →
      (∃ e, (x, e) ∈ σ.cells.log ∧ e.init = true) ∨ ∃ t' e q, upd σ.pc t p t' = .w (σ.keys x) x e q ∧ e.init = true := by
    intro t p hne x hx
    rcases w.told x hx with h1 | ⟨t', e, q, h1, h2⟩
    · exact .inl h1
    · refine .inr ⟨t', e, q, ?_, h2⟩
      rw [upd_other _ _ (by rintro rfl; exact hne _ _ _ _ h1)]
      exact h1
  have nw : ∀ {t : Nat} {q : PC}, σ.pc t = q → q.w? = none → ∀ k x e p, σ.pc t ≠ .w k x e p := by
    intro t q h1 h2 k x e p h3
    rw [h1] at h3; subst h3; simp [PC.w?] at h2
  cases hs with
  | call t op ht =>
    unfold call
    cases op with
    | upd k' fn =>
      simp only
      split
      · exact ⟨w.cas, w.told⟩
      · exact ⟨fun t' id k fn ini i hu => keepC hu (by simp), keepT (nw ht rfl)⟩
    | get k' b => exact ⟨fun t' id k fn ini i hu => keepC hu (by simp), keepT (nw ht rfl)⟩
  | step _ t hs =>
    cases step_eff hs with
    | look id' k' buf' i hpc x hp => exact ⟨fun t' id k fn ini i hu => keepC hu (by simp), keepT (nw hpc rfl)⟩
    | miss id' k' buf' i hpc hp => exact ⟨fun t' id k fn ini i hu => keepC hu (by simp), keepT (nw hpc rfl)⟩
    | next id' k' buf' i hpc i' hp => exact ⟨fun t' id k fn ini i hu => keepC hu (by simp), keepT (nw hpc rfl)⟩
    | gone id' k' buf' x p hpc => exact ⟨fun t' id k fn ini i hu => keepC hu (by simp), keepT (nw hpc rfl)⟩
    | rgo id' k' buf' x p hpc p' => exact ⟨fun t' id k fn ini i hu => keepC hu (by simp), keepT (nw hpc rfl)⟩
    | rdone id' k' buf' x p hpc b' d' => exact ⟨fun t' id k fn ini i hu => keepC hu (by simp), keepT (nw hpc rfl)⟩
    | full id' k' fn ini p hpc keys hp =>
      have ht := h.thr t
      rw [hpc] at ht
      have hk := (probeStep_ok hl ht.2.1 h.keys ini ht.2.2).2.2.2
      rw [hp] at hk
      have hk : keys = σ.keys := hk.1
      subst hk
      exact ⟨fun t' id k fn ini i hu => keepC hu (by simp), keepT (nw hpc rfl)⟩
    | probe id' k' fn ini p hpc keys p' ini' hp =>
      have ht := h.thr t
      rw [hpc] at ht
      have hk := (probeStep_ok hl ht.2.1 h.keys ini ht.2.2).2.2.2
      rw [hp] at hk
      have hk : keys = σ.keys := hk.1
      subst hk
      refine ⟨fun t' id k fn ini i hu => keepC hu ?_, keepT (nw hpc rfl)⟩
      intro he
      injection he with e1 e2 e3 e4 e5
      subst e4; subst e5
      unfold probeStep at hp
      split at hp
      · split at hp
        · simp at hp
        · split at hp
          · simp at hp; exact hp.2
          · simp at hp
      · split at hp <;> simp at hp
      · split at hp
        · simp at hp
        · split at hp <;> simp at hp
    | found id' k' fn ini p hpc keys x ini' hp =>
      have ht := h.thr t
      rw [hpc] at ht
      refine ⟨fun t' id k fn ini i hu => keepC hu (by simp), ?_⟩
      intro y hy
      by_cases hyk : keys y = σ.keys y
      · have := keepT (p := .w k' x ⟨id', fn, ini'⟩ .lock) (nw hpc rfl) y (by rw [← hyk]; exact hy)
        simp only
        rw [hyk]; exact this
      · -- the compare-and-swap
        right
        refine ⟨t, ⟨id', fn, ini'⟩, .lock, ?_, ?_⟩ <;> unfold probeStep at hp
        · split at hp
          · split at hp
            · simp at hp; exact absurd (by rw [← hp.1]) hyk
            · split at hp <;> simp at hp
          · split at hp
            · simp at hp
              obtain ⟨h1, h2, h3⟩ := hp
              have : y = x := by
                rcases Decidable.em (y = x) with h4 | hne
                · exact h4
                · exact absurd (by rw [← h1, h2, upd_other _ _ hne]) hyk
              subst this
              simp only
              rw [upd_same, ← h1, h2, upd_same]
            · simp at hp
          · split at hp
            · simp at hp; exact absurd (by rw [← hp.1]) hyk
            · split at hp <;> simp at hp
        · split at hp
          · split at hp
            · simp at hp; exact absurd (by rw [← hp.1]) hyk
            · split at hp <;> simp at hp
          · split at hp
            · simp at hp
              obtain ⟨h1, h2, h3⟩ := hp
              simp only
              rw [← h3]
              exact w.cas t _ _ _ _ _ hpc
            · simp at hp
          · split at hp
            · simp at hp; exact absurd (by rw [← hp.1]) hyk
            · split at hp <;> simp at hp
    | wgo k' x e p hpc c p' hw =>
      refine ⟨fun t' id k fn ini i hu => keepC hu (by simp), ?_⟩
      intro y hy
      have hlog : ∀ a, a ∈ σ.cells.log → a ∈ c.log := by
        intro a ha
        rcases wstep_log_cases hw with e1 | e1 <;> rw [e1]
        · exact ha
        · exact List.mem_append_left _ ha
      rcases w.told y hy with ⟨e', h1, h2⟩ | ⟨t', e', q, h1, h2⟩
      · exact .inl ⟨e', hlog _ h1, h2⟩
      · right
        by_cases ht : t' = t
        · subst ht
          rw [hpc] at h1
          injection h1 with e1 e2 e3 e4
          subst e1; subst e2; subst e3
          exact ⟨t', e, p', by simp only [upd_same], h2⟩
        · exact ⟨t', e', q, by simp only; rw [upd_other _ _ ht]; exact h1, h2⟩
    | wret k' x e p hpc c err hw =>
      refine ⟨fun t' id k fn ini i hu => keepC hu (by simp), ?_⟩
      intro y hy
      have hlog : ∀ a, a ∈ σ.cells.log → a ∈ c.log := by
        intro a ha
        rcases wstep_log_cases hw with e1 | e1 <;> rw [e1]
        · exact ha
        · exact List.mem_append_left _ ha
      rcases w.told y hy with ⟨e', h1, h2⟩ | ⟨t', e', q, h1, h2⟩
      · exact .inl ⟨e', hlog _ h1, h2⟩
      · by_cases ht : t' = t
        · subst ht
          rw [hpc] at h1
          injection h1 with e1 e2 e3 e4
          subst e1; subst e2; subst e3
          left
          refine ⟨e, hlog _ ?_, h2⟩
          have hok := h.cells.wok t' x e p (by unfold wOf; rw [hpc]; rfl)
          cases p <;> simp [wstep] at hw
          · next ws r =>
            cases ws with
            | nil => cases r <;> simp [wstep] at hw
            | cons a ws =>
              obtain ⟨a1, a2⟩ := a
              simp [wstep] at hw
              split at hw <;> simp at hw
          · obtain ⟨_, _, es, hes, _⟩ := hok
            exact Props.BufmapConc.mem_writesOf.mp (by rw [hes]; simp)
        · exact .inr ⟨t', e', q, by simp only; rw [upd_other _ _ ht]; exact h1, h2⟩

theorem told_reach {l s : Nat} (hl : 0 < l) {σ : State} (hs : Steps l s init σ) : Told l σ := by
  have : ∀ {a b : State}, Steps l s a b → a = init → Told l b := by
    intro a b hab
    induction hab with
    | refl => rintro rfl; exact told_init l
    | tail h1 h2 ih =>
      intro e
      subst e
      exact told_step hl (inv_reach hl h1) (ih rfl) h2
  exact this hs rfl

/-- who is not told `init` found the key in its home slot at the first look -/
structure Off (l : Nat) (σ : State) : Prop where
  probe : ∀ t id k fn p, σ.pc t = .uProbe id k fn false p → p = .load 0
  write : ∀ t k x e p, σ.pc t = .w k x e p → e.init = false → x = pos l k 0
  log : ∀ x e, (x, e) ∈ σ.cells.log → e.init = false → x = pos l (σ.keys x) 0

theorem off_init (l : Nat) : Off l init :=
  ⟨by intro t id k fn p h; simp [init] at h, by intro t k x e p h; simp [init] at h, by intro x e h; simp [init, Cell.init] at h⟩

theorem off_step {l s : Nat} (hl : 0 < l) {σ σ' : State} (h : Inv l s σ) (w : Off l σ) (hs : Step l s σ σ') : Off l σ' := by
  have hm := Props.BufmapConc.step_mono hl h hs
  have keepP : ∀ {t p t' id k fn q}, upd σ.pc t p t' = .uProbe id k fn false q →
      (p = .uProbe id k fn false q → q = .load 0) → q = .load 0 := by
    intro t p t' id k fn q hu hp
    by_cases he : t' = t
    · subst he; rw [upd_same] at hu; exact hp hu
    · rw [upd_other _ _ he] at hu; exact w.probe t' id k fn q hu
  have keepW : ∀ {t p t' k x e q}, upd σ.pc t p t' = .w k x e q → e.init = false →
      (p = .w k x e q → x = pos l k 0) → x = pos l k 0 := by
    intro t p t' k x e q hu hid hp
    by_cases he : t' = t
    · subst he; rw [upd_same] at hu; exact hp hu
    · rw [upd_other _ _ he] at hu; exact w.write t' k x e q hu hid
  have keepL : ∀ {log : List (Nat × Entry)}, log = σ.cells.log → ∀ x e, (x, e) ∈ log → e.init = false → x = pos l (σ'.keys x) 0 := by
    rintro log rfl x e hx hid
    rw [hm.1 x (h.logok x e hx).2.1]
    exact w.log x e hx hid
  have keepL' : ∀ {log : List (Nat × Entry)} {t k' y e' p}, σ.pc t = .w k' y e' p → (log = σ.cells.log ∨ log = σ.cells.log ++ [(y, e')]) →
      ∀ x e, (x, e) ∈ log → e.init = false → x = pos l (σ'.keys x) 0 := by
    rintro log t k' y e' p hpc (hlog | hlog)
    · exact keepL hlog
    · intro x e hx hid
      rw [hlog, List.mem_append, List.mem_singleton] at hx
      rcases hx with hx | hx
      · exact keepL rfl x e hx hid
      · obtain ⟨rfl, rfl⟩ := Prod.mk.inj hx
        have ht := h.thr t
        rw [hpc] at ht
        obtain ⟨_, hk0, _, hkk⟩ := ht
        rw [hm.1 x (by rw [hkk]; exact hk0), hkk]
        exact w.write t _ x e p hpc hid
  cases hs with
  | call t op ht =>
    unfold call
    cases op with
    | upd k' fn =>
      simp only
      split
      · exact ⟨w.probe, w.write, w.log⟩
      · refine ⟨fun t' id k fn' p hu => keepP hu ?_, fun t' k x e p hu hid => keepW hu hid (by simp), w.log⟩
        intro he
        injection he with _ _ _ e4 e5
        exact e5.symm
    | get k' b =>
      exact ⟨fun t' id k fn' p hu => keepP hu (by simp), fun t' k x e p hu hid => keepW hu hid (by simp), w.log⟩
  | step _ t hs =>
    cases step_eff hs with
    | full id' k' fn ini p hpc keys hp =>
      exact ⟨fun t' id k fn' p hu => keepP hu (by simp), fun t' k x e p hu hid => keepW hu hid (by simp), keepL rfl⟩
    | wgo k' x e p hpc c p' hw =>
      refine ⟨fun t' id k fn' p hu => keepP hu (by simp), fun t' k x e p hu hid => keepW hu hid ?_, keepL' hpc (wstep_log_cases hw)⟩
      intro he
      injection he with e1 e2 e3 e4
      subst e1; subst e2; subst e3
      exact w.write t _ _ _ _ hpc hid
    | wret k' x e p hpc c err hw =>
      exact ⟨fun t' id k fn' p hu => keepP hu (by simp), fun t' k x e p hu hid => keepW hu hid (by simp),
        keepL' hpc (wstep_log_cases hw)⟩
    | look id' k' buf' i hpc x hp =>
      exact ⟨fun t' id k fn' p hu => keepP hu (by simp), fun t' k x e p hu hid => keepW hu hid (by simp), keepL rfl⟩
    | miss id' k' buf' i hpc hp =>
      exact ⟨fun t' id k fn' p hu => keepP hu (by simp), fun t' k x e p hu hid => keepW hu hid (by simp), keepL rfl⟩
    | next id' k' buf' i hpc i' hp =>
      exact ⟨fun t' id k fn' p hu => keepP hu (by simp), fun t' k x e p hu hid => keepW hu hid (by simp), keepL rfl⟩
    | gone id' k' buf' x p hpc =>
      exact ⟨fun t' id k fn' p hu => keepP hu (by simp), fun t' k x e p hu hid => keepW hu hid (by simp), keepL rfl⟩
    | rgo id' k' buf' x p hpc p' =>
      exact ⟨fun t' id k fn' p hu => keepP hu (by simp), fun t' k x e p hu hid => keepW hu hid (by simp), keepL rfl⟩
    | rdone id' k' buf' x p hpc b' d' =>
      exact ⟨fun t' id k fn' p hu => keepP hu (by simp), fun t' k x e p hu hid => keepW hu hid (by simp), keepL rfl⟩
    | probe id' k' fn ini p hpc keys p' ini' hp =>
      refine ⟨fun t' id k fn' p hu => keepP hu ?_, fun t' k x e p hu hid => keepW hu hid (by simp), keepL rfl⟩
      intro he
      injection he with e1 e2 e3 e4 e5
      subst e4; subst e5
      cases ini with
      | false =>
        have := w.probe t _ _ _ _ hpc
        subst this
        unfold probeStep at hp
        simp only at hp
        split at hp
        · simp at hp
        · split at hp <;> simp at hp
      | true =>
        unfold probeStep at hp
        split at hp
        · split at hp
          · simp at hp
          · split at hp <;> simp at hp
        · split at hp <;> simp at hp
        · split at hp
          · simp at hp
          · split at hp <;> simp at hp
    | found id' k' fn ini p hpc keys x ini' hp =>
      refine ⟨fun t' id k fn' p hu => keepP hu (by simp), fun t' k x e p hu hid => keepW hu hid ?_, keepL rfl⟩
      intro he
      injection he with e1 e2 e3 e4
      subst e1; subst e2; subst e3
      have hid : ini' = false := hid
      subst hid
      cases ini with
      | false =>
        have := w.probe t _ _ _ _ hpc
        subst this
        unfold probeStep at hp
        simp only at hp
        split at hp
        · simp at hp; exact hp.2.symm
        · split at hp <;> simp at hp
      | true =>
        unfold probeStep at hp
        split at hp
        · split at hp
          · simp at hp
          · split at hp <;> simp at hp
        · split at hp <;> simp at hp
        · split at hp
          · simp at hp
          · split at hp <;> simp at hp

theorem off_reach {l s : Nat} (hl : 0 < l) {σ : State} (hs : Steps l s init σ) : Off l σ := by
  have : ∀ {a b : State}, Steps l s a b → a = init → Off l b := by
    intro a b hab
    induction hab with
    | refl => rintro rfl; exact off_init l
    | tail h1 h2 ih =>
      intro e
      subst e
      exact off_step hl (inv_reach hl h1) (ih rfl) h2
  exact this hs rfl

end Starbow.BufmapConc
