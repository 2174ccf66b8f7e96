import Verif.Proof.StoreRun
import Verif.Props.StoreRun
/-
When a history of observations is accepted by a store.
-/
namespace Starbow.Props
open Starbow.Collation Starbow.Spec Starbow.Storage

theorem applyRows_snoc (lib : Lib) (c : Collator) (rs : List Row) (r : Row) : ∀ (buf b : Bytes) (init : Bool),
    applyRows lib c buf init (rs ++ [r]) = (b, .val none) →
    ∃ b1, applyRows lib c buf init rs = (b1, .val none) ∧ Collation.update lib c r b1 (init && rs.isEmpty) = (b, .val none) := by
  induction rs with
  | nil =>
    intro buf b init h
    refine ⟨buf, rfl, ?_⟩
    rw [List.nil_append, applyRows] at h
    rcases hu : update lib c r buf init with ⟨b', o⟩
    rw [hu] at h
    rcases o with (e | e) | _
    · simp only [applyRows, Prod.mk.injEq, and_true] at h
      subst h
      simpa using hu
    · simp at h
    · simp at h
  | cons x rs ih =>
    intro buf b init h
    rw [List.cons_append, applyRows] at h
    rw [applyRows]
    rcases hu : update lib c x buf init with ⟨b', o⟩
    rw [hu] at h
    rcases o with (e | e) | _
    · simp only at h ⊢
      obtain ⟨b1, h1, h2⟩ := ih _ _ _ h
      exact ⟨b1, h1, by simpa using h2⟩
    · simp at h
    · simp at h

theorem rowsWith_append (keys : List Bytes) (k : U64) (a b : List Obs) : rowsWith keys k (a ++ b) = rowsWith keys k a ++ rowsWith keys k b := by
  unfold rowsWith
  rw [List.map_append, List.filter_append]

section
variable {sch : Schema} {L : List (Owner × Cell)} {D : List (Bytes × Measure)} {pos : Int} {l : Nat}

/-- with no two keys sharing a home slot: a history is accepted if and only if no observation with a key is cancelled or has key 0, and the observations of
each key are accepted by a record -/
theorem accepted_iff (lib : Lib) (h : Laid ⟨compile sch, pos⟩ L D) (hl : 0 < l) (os : List Obs) (happ : HomesApart sch.keys l os) :
    (∀ p ∈ (writes lib (newStore sch l) os).2, p.2 = .ret none) ↔
    (∀ o ∈ os, ∀ k, keyValue o.row.data sch.keys = some k → o.canceled = false ∧ k ≠ 0) ∧
    (∀ k, k ≠ 0 → ∃ buf, RecordOf lib (compile sch) (rowsWith sch.keys k os) buf) := by
  induction os using List.reverseRecOn with
  | nil =>
    refine ⟨fun _ => ⟨by simp, fun k _ => ⟨blank (compile sch), rfl⟩⟩, fun _ => by simp [writes]⟩
  | append_singleton os o ih =>
    have happ' : HomesApart sch.keys l os := fun a ha b hb => happ a (by simp [ha]) b (by simp [hb])
    have ih := ih happ'
    have hg := good_writes (l := l) lib h os (good_new h hl)
    obtain ⟨a1, a2⟩ := writes_append lib os [o] (newStore sch l)
    have hres : (writes lib (newStore sch l) (os ++ [o])).2 = (writes lib (newStore sch l) os).2 ++
        [(o, (write lib (writes lib (newStore sch l) os).1 o.canceled o.row).2)] := by rw [a2]; rfl
    rw [hres]
    have hsplit : (∀ p ∈ (writes lib (newStore sch l) os).2 ++ [(o, (write lib (writes lib (newStore sch l) os).1 o.canceled o.row).2)], p.2 = .ret none) ↔
        (∀ p ∈ (writes lib (newStore sch l) os).2, p.2 = .ret none) ∧ (write lib (writes lib (newStore sch l) os).1 o.canceled o.row).2 = .ret none := by
      constructor
      · intro h
        exact ⟨fun p hp => h p (by simp [hp]), h (o, _) (by simp)⟩
      · rintro ⟨h1, h2⟩ p hp
        rcases List.mem_append.1 hp with hp | hp
        · exact h1 p hp
        · rw [List.mem_singleton.1 hp]; exact h2
    rw [hsplit]
    have hlast : ∀ k, rowsWith sch.keys k [o] = if keyValue o.row.data sch.keys = some k then [o.row] else [] := by
      intro k
      unfold rowsWith
      by_cases hk : keyValue o.row.data sch.keys = some k <;> simp [hk]
    -- what a write does to a store whose history was accepted
    have step : (∀ p ∈ (writes lib (newStore sch l) os).2, p.2 = .ret none) →
        ((write lib (writes lib (newStore sch l) os).1 o.canceled o.row).2 = .ret none ↔
        (∀ k, keyValue o.row.data sch.keys = some k → o.canceled = false ∧ k ≠ 0) ∧
        (∀ k, k ≠ 0 → keyValue o.row.data sch.keys = some k → ∃ buf, RecordOf lib (compile sch) (rowsWith sch.keys k os ++ [o.row]) buf)) := by
      intro hall
      cases write_cases lib h hg o.canceled o.row with
      | nokey hk e => rw [e, hk]; simp
      | refused k hk e he hwhy hw =>
        rw [hw]
        refine ⟨fun h => by simp at h, ?_⟩
        rintro ⟨c1, _⟩
        exfalso
        obtain ⟨hc, h0⟩ := c1 k hk
        rcases hwhy with ⟨hc', _⟩ | ⟨_, hz, _⟩ | ⟨_, _, _, hn, hfull⟩
        · rw [hc] at hc'; simp at hc'
        · exact h0 hz
        · obtain ⟨hh, hi⟩ := home_writes lib h (fun k => ∃ o' ∈ os ++ [o], keyValue o'.row.data sch.keys = some k)
            (by rintro k k' ⟨o1, ho, e⟩ ⟨o2, ho', e'⟩ hm; exact happ o1 ho o2 ho' k k' e e' hm) os (good_new h hl)
            (fun o' ho' k e => ⟨o', by simp [ho'], e⟩) (by intro y hy hne; exact absurd (keys_new hl y hy) hne)
            (by intro y hy hne; exact absurd (keys_new hl y hy) hne)
          have hne := hfull 0 (by simp)
          rw [Probe.pos_zero] at hne
          have hlt : k.toNat % l < l := Nat.mod_lt _ hl
          obtain ⟨o', ho', e'⟩ := hi _ hlt hne
          have := happ o' ho' o (by simp) _ _ e' hk (hh _ hlt hne)
          have hs := (Bufmap.slotOf_eq hg.wf h0).2 ⟨hlt, this⟩
          rw [hn] at hs
          simp at hs
      | ran k hk hc h0 x hx hxk hslot init hinit hdata hkeys e he hu hw =>
        rw [hw]
        have hrows := rowsFor_accepted lib (newStore sch l) os sch.keys k hall
        have hstored := stored_run lib h hl h0 os
        rw [hrows] at hstored
        have hbytes : ∃ b1, RecordOf lib (compile sch) (rowsWith sch.keys k os) b1 ∧
            slotBytes (writes lib (newStore sch l) os).1.backend x = b1 ∧ init = (true && (rowsWith sch.keys k os).isEmpty) := by
          rcases hstored with ⟨hr, hn⟩ | ⟨hr, y, hy, hs, _⟩
          · rw [hr]
            refine ⟨blank (compile sch), rfl, ?_, ?_⟩
            · rw [hdata]
              unfold contentOf
              rw [hn]
              rfl
            · rw [hinit, hn]; simp
          · have hyk := home_run lib h hl os happ' h0 hs
            have hyx : y = x := by
              rcases hslot with hsl | hsl
              · rw [hs] at hsl; exact Option.some.inj hsl
              · rw [hs] at hsl; simp at hsl
            subst hyx
            have hkept := kept_run lib h hl h0 os (fun p hp _ _ => hall p hp) y hs hyk
            rw [hrows] at hkept
            refine ⟨_, hkept, rfl, ?_⟩
            rw [hinit, hs]
            simp [hyk, hr]
        obtain ⟨b1, r1, r2, r3⟩ := hbytes
        have key : e = none ↔ ∃ buf, RecordOf lib (compile sch) (rowsWith sch.keys k os ++ [o.row]) buf := by
          constructor
          · intro he0
            subst he0
            rw [r2, r3] at hu
            exact ⟨_, applyRows_append lib (compile sch) _ o.row _ b1 true r1 _ hu⟩
          · rintro ⟨buf, hb⟩
            obtain ⟨b2, s1, s2⟩ := applyRows_snoc lib (compile sch) _ o.row _ buf true hb
            unfold RecordOf at r1
            rw [r1] at s1
            simp only [Prod.mk.injEq, and_true] at s1
            subst s1
            rw [r2, r3, s2] at hu
            simp only [Prod.mk.injEq, true_and, Out.val.injEq] at hu
            exact hu.symm
        constructor
        · intro he0
          have he0 : e = none := by simpa using he0
          refine ⟨?_, ?_⟩
          · intro k' hk'
            rw [hk] at hk'
            rw [← Option.some.inj hk']
            exact ⟨hc, h0⟩
          · intro k' _ hk'
            rw [hk] at hk'
            rw [← Option.some.inj hk']
            exact key.1 he0
        · rintro ⟨_, h2⟩
          rw [key.2 (h2 k h0 hk)]
    constructor
    · rintro ⟨h1, h2⟩
      obtain ⟨i1, i2⟩ := ih.1 h1
      obtain ⟨s1, s2⟩ := (step h1).1 h2
      refine ⟨?_, ?_⟩
      · intro o' ho' k hk
        rcases List.mem_append.1 ho' with ho' | ho'
        · exact i1 o' ho' k hk
        · rw [List.mem_singleton.1 ho'] at hk ⊢
          exact s1 k hk
      · intro k h0
        rw [rowsWith_append, hlast]
        split
        · next hk => exact s2 k h0 hk
        · rw [List.append_nil]; exact i2 k h0
    · rintro ⟨c1, c2⟩
      have h1 := ih.2 ⟨fun o' ho' => c1 o' (by simp [ho']), fun k h0 => by
        obtain ⟨buf, hb⟩ := c2 k h0
        rw [rowsWith_append, hlast] at hb
        split at hb
        · obtain ⟨b, hb, _⟩ := applyRows_snoc lib (compile sch) _ o.row _ buf true hb
          exact ⟨b, hb⟩
        · rw [List.append_nil] at hb; exact ⟨buf, hb⟩⟩
      refine ⟨h1, (step h1).2 ⟨c1 o (by simp), ?_⟩⟩
      intro k h0 hk
      obtain ⟨buf, hb⟩ := c2 k h0
      rw [rowsWith_append, hlast, if_pos hk] at hb
      exact ⟨buf, hb⟩
end

end Starbow.Props
