import Verif.Proof.ServerCut
import Verif.Props.ServerReplies
import Verif.Props.ServerCancel
/-
Property C43 under concurrent requests, for posts that can be cancelled as well: how far a post had come when it was answered.
-/
namespace Starbow.Props
open Starbow.Collation Starbow.Spec Starbow.Storage Starbow.Server Starbow.ServerConc Starbow.BufmapConc Starbow.Cell Starbow.Probe

/-- **C43** under concurrent requests, of any post that has been answered, whether or not its context can be cancelled, and whatever else is handled at
the same time: there is a place `(p, s)` where it ended. All lines before line `p` are settled with every store, line `p` with the stores before
`s`, and nothing behind this place was given to a store. Either the body ended there (200, or 500 if it was cut short); or the post was cancelled before line `p`
(200, and line `p` was given to no store); or line `p` is no observation (500); or the post was cancelled when line `p` was to be written to store `s` (500, and
it was not); or store `s` returned an error for line `p` (500). -/
theorem C43_concurrent (env : Env) (confs : List Conf) (σ : ServerConc.State) (hr : ServerConc.Steps env confs ServerConc.init σ) (j : Nat)
    (req : Request) (hj : σ.reqs[j]? = some req) (ls : List Bytes) (e : Option Err) (hp : Posts env req ls e)
    (rep : Reply) (hrep : (j, rep) ∈ σ.replies) :
    ∃ p s,
      (∀ p' < p, ∀ line, ls[p']? = some line → ∀ s' < confs.length, Settled confs σ j p' line s') ∧
      (∀ line, ls[p]? = some line → ∀ s' < s, Settled confs σ j p line s') ∧
      (∀ p' s', Given σ j p' s' → p' < p ∨ p' = p ∧ s' ≤ s) ∧
      ((p = ls.length ∧ rep = if e = none then .ok [] else .refused 500) ∨
       (p < ls.length ∧ (∀ s', ¬ Given σ j p s') ∧ req.ctx ≠ none ∧ rep = .ok []) ∨
       (∃ line err, ls[p]? = some line ∧ parseRow line = .val (.error err) ∧ (∀ s', ¬ Given σ j p s') ∧ rep = .refused 500) ∨
       (∃ line r c k, ls[p]? = some line ∧ parseRow line = .val (.ok r) ∧ confs[s]? = some c ∧ keyValue r.data c.coll.keys = some k ∧
         ¬ Given σ j p s ∧ req.ctx ≠ none ∧ rep = .refused 500) ∨
       (∃ line r i ret err, ls[p]? = some line ∧ parseRow line = .val (.ok r) ∧ s < confs.length ∧ (σ.origin s)[i]? = some (j, p) ∧
         (σ.stores s).calls[i]? = some (StoreConc.Call.write r) ∧ (i, ret) ∈ (σ.stores s).m.rets ∧ StoreConc.writeReply ret = some (some err) ∧
         rep = .refused 500)) := by
  have hi := inv_reach hr
  have ht := posts_task (confs := confs) hp
  obtain ⟨p, s, h1, h2, h3⟩ := cuts_reach hr j rep hrep req ls e hj ht
  have lineIs : ∀ {p r}, LineIs env confs σ j p r → ∃ line, ls[p]? = some line ∧ parseRow line = .val (.ok r) := by
    rintro p r ⟨req', ls', e', line, a1, a2, a3, a4⟩
    rw [hj] at a1
    obtain rfl := Option.some.inj a1
    rw [ht] at a2
    injection a2 with a2 _
    subst a2
    exact ⟨line, a3, a4⟩
  have none_given : Below σ j p 0 → ∀ s', ¬ Given σ j p s' := by
    rintro hb s' ⟨i, r, m1, m2⟩
    rcases hb s' i p r ⟨m1, m2⟩ with h | ⟨_, h⟩ <;> omega
  have behind : ∀ {n : Nat}, n ≤ s + 1 → Below σ j p n → ∀ p' s', Given σ j p' s' → p' < p ∨ p' = p ∧ s' ≤ s := by
    rintro n hn hb p' s' ⟨i, r, m1, m2⟩
    rcases hb s' i p' r ⟨m1, m2⟩ with h | ⟨h, h'⟩
    · exact .inl h
    · exact .inr ⟨h, by omega⟩
  refine ⟨p, s, fun p' hp' line hl s' hs' => done_settled hi hj ht hl (h1 p' hp' s' hs'), fun line hl s' hs' => done_settled hi hj ht hl (h2 s' hs'), ?_⟩
  rcases h3 with ⟨a, b, c, d⟩ | ⟨a, b, c, d, f⟩ | ⟨line, err, a, b, c, d, f⟩ | ⟨r, c, k, a, b, d, f, g, g'⟩ | ⟨r, i, ret, err, a, b, c, d, f, g, g'⟩
  · exact ⟨behind (by omega) c, .inl ⟨a, d⟩⟩
  · exact ⟨behind (by omega) c, .inr (.inl ⟨a, none_given c, d, f⟩)⟩
  · exact ⟨behind (by omega) d, .inr (.inr (.inl ⟨line, err, a, b, none_given d, f⟩))⟩
  · obtain ⟨line, l1, l2⟩ := lineIs a
    refine ⟨behind (by omega) f, .inr (.inr (.inr (.inl ⟨line, r, c, k, l1, l2, b, d, ?_, g, g'⟩)))⟩
    rintro ⟨i, r', m1, m2⟩
    rcases f s i p r' ⟨m1, m2⟩ with h | ⟨_, h⟩ <;> omega
  · obtain ⟨line, l1, l2⟩ := lineIs a
    exact ⟨behind (by omega) g, .inr (.inr (.inr (.inr ⟨line, r, i, ret, err, l1, l2, b, c.1, c.2, d, f, g'⟩)))⟩

/-- the stores of the instance -/
def parisConfs : List Conf := [⟨compile byCountry, 16⟩, ⟨compile byCity, 16⟩]

theorem paris_agrees : Agrees parisConfs ServerConc.init [newStore byCountry 16, newStore byCity 16] := by
  refine ⟨rfl, ?_⟩
  intro s st c hst hc
  match s with
  | 0 =>
    obtain rfl := Option.some.inj hst
    obtain rfl := Option.some.inj hc
    exact ⟨rfl, same_init _ _⟩
  | 1 =>
    obtain rfl := Option.some.inj hst
    obtain rfl := Option.some.inj hc
    exact ⟨rfl, same_init _ _⟩
  | s + 2 => simp [parisConfs] at hc

/-- instance of C43_concurrent: two observations are posted and the post is cancelled after two looks at its context; it is answered 500, and it follows that a line could not be
written to a store for which nothing but the cancelling can be the reason, or that a store returned an error. -/
example (env : Env) (hlib : env.lib = fewNumbers) :
    ∃ σ req, ServerConc.Steps env parisConfs ServerConc.init σ ∧ σ.reqs = [req] ∧ req.ctx ≠ none ∧
      Posts env req [asc "15,country=FR,city=Paris", asc "15,country=FR,city=Paris"] none ∧ (0, Reply.refused 500) ∈ σ.replies ∧
      ∃ p s, p < 2 ∧ s < 2 ∧ ∀ s' < s, Settled parisConfs σ 0 p (asc "15,country=FR,city=Paris") s' := by
  have hpos : ∀ c ∈ parisConfs, 0 < c.slots := by
    intro c hc
    simp only [parisConfs, List.mem_cons, List.not_mem_nil, or_false] at hc
    rcases hc with rfl | rfl <;> (show 0 < 16; decide)
  obtain ⟨line, hline⟩ : ∃ line, line = asc "15,country=FR,city=Paris" := ⟨_, rfl⟩
  have hok : parseRow line = .val (.ok parisRow) := by rw [hline]; decide +kernel
  have hl : LineOk line := by rw [hline]; exact ⟨by decide +kernel, by decide +kernel⟩
  have hcr : noCR line = line := by rw [hline]; decide +kernel
  have hm := (paris_midway env hlib).1
  simp only at hm
  rw [← hline] at hm ⊢
  obtain ⟨σ, a1, a2, a3, a4, -⟩ := C68_alone env parisConfs hpos ServerConc.init (.refl _) 0 rfl (fun _ => rfl) _ paris_agrees _ _ _ hm (by simp) (by simp)
  have hposts : Posts env { post (unlines [line, line]) with ctx := some 2 } [line, line] none := by
    refine ⟨rfl, rfl, rfl, _, .text (.inr rfl), ?_⟩
    have := scan_unlines none false [] [line, line] (by
      intro l hl'
      simp only [List.mem_cons, List.not_mem_nil, or_false, or_self] at hl'
      rw [hl']; exact hl)
    rw [show scan none false [] = ([], none) by decide +kernel] at this
    simpa [unlines, post, hcr] using this
  have hreqs : σ.reqs = [{ post (unlines [line, line]) with ctx := some 2 }] := a3
  have hrep : (0, Reply.refused 500) ∈ σ.replies := by rw [a4]; exact List.mem_append_right _ (List.mem_singleton.2 rfl)
  refine ⟨σ, _, a1, hreqs, by simp, hposts, hrep, ?_⟩
  obtain ⟨p, s, h1, h2, h3, h4⟩ := C43_concurrent env parisConfs σ a1 0 _ (by rw [hreqs]; rfl) _ _ hposts _ hrep
  have two : ∀ {p : Nat} {l : Bytes}, [line, line][p]? = some l → p < 2 ∧ l = line := by
    intro p l h
    refine ⟨by simpa using (List.getElem?_eq_some_iff.1 h).1, ?_⟩
    have := List.mem_of_getElem? h
    simpa using this
  rcases h4 with ⟨-, h⟩ | ⟨-, -, -, h⟩ | ⟨l, err, a, b, -⟩ | ⟨l, r, c, k, a, -, b, -⟩ | ⟨l, r, i, ret, err, a, -, b, -⟩
  · simp at h
  · simp at h
  · rw [(two a).2, hok] at b
    simp at b
  · refine ⟨p, s, (two a).1, ?_, fun s' hs' => h2 line (by rw [a, (two a).2]) s' hs'⟩
    exact (List.getElem?_eq_some_iff.1 b).1
  · exact ⟨p, s, (two a).1, b, fun s' hs' => h2 line (by rw [a, (two a).2]) s' hs'⟩

end Starbow.Props
