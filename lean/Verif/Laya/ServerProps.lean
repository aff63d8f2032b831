import Verif.Laya.Server
/-!
# Property theorems about the server glue (C16, C17, C18, C39)
-/
namespace Laya.Server

/-- **C16.** Polling a response body `n + 1` times yields the whole payload first, then only
end-of-body. -/
theorem C16_body_once (body : Bytes) (n : Nat) :
    (ResponseBody.new body).polls (n + 1) = some body :: List.replicate n none := by
  have : ∀ m, (ResponseBody.mk none).polls m = List.replicate m none := by
    intro m
    induction m with
    | zero => rfl
    | succ m ih => simp only [ResponseBody.polls, ResponseBody.pollFrame, ih, List.replicate_succ]
  simp only [ResponseBody.polls, ResponseBody.pollFrame, ResponseBody.new, this]

example : (ResponseBody.new [1, 2]).polls 3 = [some [1, 2], none, none] := by decide

/-- The bytes a socket outcome delivered. -/
def SocketRead.delivered : SocketRead → Bytes
  | .ok bytes => bytes
  | _ => []

/-- **C18**, what does hold: over any sequence of socket outcomes the caller's buffer receives exactly
the delivered bytes, in order, none lost or repeated, and the adapter says "pending" exactly when the
socket does. -/
theorem C18_read_ok_partial (filled : Bytes) (os : List SocketRead) :
    os.foldl (fun buf o => (pollRead buf o).2) filled = filled ++ (os.map SocketRead.delivered).flatten ∧
    (∀ o, (pollRead filled o).1 = .pending ↔ o = .pending) := by
  constructor
  · induction os generalizing filled with
    | nil => simp
    | cons o os ih =>
      rw [List.foldl_cons, ih]
      cases o <;> simp [pollRead, SocketRead.delivered]
  · intro o; cases o <;> simp [pollRead]

example : [SocketRead.ok [1], .pending, .ok [2, 3]].foldl (fun buf o => (pollRead buf o).2) [0] = [0, 1, 2, 3] := by
  decide

/-- **C18 is false of the code**: a socket error is reported as a successful read of zero bytes, which
hyper cannot tell from the peer closing the connection. -/
theorem C18_error_swallowed (filled : Bytes) :
    (pollRead filled .err).1 ≠ .err ∧ pollRead filled .err = pollRead filled (.ok []) := by
  constructor
  · simp [pollRead]
  · simp [pollRead]

/-! ## The accept loop -/

theorem run_append (s : Shard) (a b : List Event) :
    s.run (a ++ b) = (s.run a).bind fun s' => s'.run b := by
  induction a generalizing s with
  | nil => rfl
  | cons e a ih =>
    simp only [List.cons_append, Shard.run]
    cases h : s.step e with
    | none => rfl
    | some s' => simp [ih]

structure Inv (max : Nat) (s : Shard) : Prop where
  permits : s.permits + s.serving.length = max
  ids : (s.waiting ++ s.serving ++ s.closed).Perm (List.range s.accepted)

theorem inv_init (max : Nat) : Inv max (Shard.init max) := ⟨by simp [Shard.init], by simp [Shard.init]⟩

theorem inv_step {max : Nat} {s s' : Shard} {e : Event} (h : Inv max s) (hs : s.step e = some s') :
    Inv max s' := by
  obtain ⟨h1, h2⟩ := h
  cases e with
  | accept =>
    simp only [Shard.step] at hs
    split at hs
    · simp only [Option.some.injEq] at hs; subst hs
      refine ⟨h1, ?_⟩
      simp only [List.range_succ]
      have : (s.waiting ++ [s.accepted] ++ s.serving ++ s.closed).Perm
          (s.waiting ++ s.serving ++ s.closed ++ [s.accepted]) := by
        simp only [List.append_assoc]
        refine List.Perm.append_left _ ?_
        have := @List.perm_append_comm _ [s.accepted] (s.serving ++ s.closed)
        simpa using this
      exact this.trans (h2.append_right _)
    · simp at hs
  | acceptErr =>
    simp only [Shard.step] at hs
    split at hs
    · simp only [Option.some.injEq] at hs; subst hs; exact ⟨h1, h2⟩
    · simp at hs
  | localAddrErr =>
    simp only [Shard.step] at hs
    split at hs
    · simp only [Option.some.injEq] at hs; subst hs; exact ⟨h1, h2⟩
    · simp at hs
  | admit i =>
    simp only [Shard.step] at hs
    split at hs
    · rename_i hc
      simp only [Option.some.injEq] at hs; subst hs
      refine ⟨by simp; omega, ?_⟩
      refine List.Perm.trans ?_ h2
      refine List.Perm.append_right _ ?_
      have hp : (i :: s.waiting.erase i).Perm s.waiting := (List.perm_cons_erase hc.1).symm
      refine List.Perm.trans ?_ (hp.append_right s.serving)
      simp only [List.cons_append]
      rw [← List.append_assoc]
      have := @List.perm_append_comm _ (s.waiting.erase i ++ s.serving) [i]
      simpa using this
    · simp at hs
  | finish i =>
    simp only [Shard.step] at hs
    split at hs
    · rename_i hc
      simp only [Option.some.injEq] at hs; subst hs
      have hl : s.serving.length ≠ 0 := by
        intro h; rw [List.length_eq_zero_iff] at h; rw [h] at hc; simp at hc
      refine ⟨by simp only [List.length_erase_of_mem hc]; omega, ?_⟩
      refine List.Perm.trans ?_ h2
      simp only [List.append_assoc]
      refine List.Perm.append_left _ ?_
      have hp : (i :: s.serving.erase i).Perm s.serving := (List.perm_cons_erase hc).symm
      refine List.Perm.trans ?_ (hp.append_right s.closed)
      rw [← List.append_assoc]
      have := @List.perm_append_comm _ (s.serving.erase i ++ s.closed) [i]
      simpa using this
    · simp at hs

theorem inv_run {max : Nat} {s s' : Shard} {es : List Event} (h : Inv max s) (hs : s.run es = some s') :
    Inv max s' := by
  induction es generalizing s with
  | nil => simp only [Shard.run, Option.some.injEq] at hs; subst hs; exact h
  | cons e es ih =>
    simp only [Shard.run] at hs
    cases hst : s.step e with
    | none => rw [hst] at hs; simp at hs
    | some t => rw [hst] at hs; exact ih (inv_step h hst) hs

/-- **C17.** In every history: at most `max` connections are being served, permits plus served
connections is always `max` (none is leaked or forged), and every accepted connection is in exactly one
of the stages waiting, served, finished. -/
theorem C17_cap (max : Nat) (es : List Event) (s : Shard) (h : (Shard.init max).run es = some s) :
    s.serving.length ≤ max ∧ s.permits = max - s.serving.length ∧
    (∀ i, i < s.accepted ↔ (i ∈ s.waiting ∨ i ∈ s.serving ∨ i ∈ s.closed)) ∧
    (s.waiting ++ s.serving ++ s.closed).Nodup := by
  obtain ⟨h1, h2⟩ := inv_run (inv_init max) h
  refine ⟨by omega, by omega, ?_, ?_⟩
  · intro i
    have := h2.mem_iff (a := i)
    simp only [List.mem_append, List.mem_range] at this
    rw [← this]
    constructor
    · rintro ((h | h) | h) <;> simp [h]
    · rintro (h | h | h) <;> simp [h]
  · exact h2.nodup_iff.2 List.nodup_range

/-- **C17.** In every history, if fewer than `max` connections are served, any waiting connection can
be admitted at once; and any served connection can finish, freeing its slot. -/
theorem C17_progress (max : Nat) (es : List Event) (s : Shard) (h : (Shard.init max).run es = some s) (i : Nat) :
    (i ∈ s.waiting → s.serving.length < max →
      ∃ s', s.step (.admit i) = some s' ∧ i ∈ s'.serving ∧ s'.serving.length = s.serving.length + 1) ∧
    (i ∈ s.serving → ∃ s', s.step (.finish i) = some s' ∧ i ∈ s'.closed ∧
      s'.serving.length + 1 = s.serving.length) := by
  obtain ⟨h1, h2⟩ := inv_run (inv_init max) h
  constructor
  · intro hw hl
    refine ⟨_, by simp only [Shard.step]; rw [if_pos ⟨hw, by omega⟩], ?_, ?_⟩ <;> simp
  · intro hs
    refine ⟨_, by simp only [Shard.step]; rw [if_pos hs], ?_, ?_⟩
    · simp
    · have hl : s.serving.length ≠ 0 := by
        intro h; rw [List.length_eq_zero_iff] at h; rw [h] at hs; simp at hs
      simp only [List.length_erase_of_mem hs]; omega

/-- **C17**, its limit: the cap counts served connections, not accepted sockets. For every `n` there is
a history with at least `n` open sockets, whatever `max` is. -/
theorem C17_sockets_unbounded (max n : Nat) :
    ∃ es s, (Shard.init max).run es = some s ∧ n ≤ s.waiting.length := by
  suffices ∀ n, ∃ es s, (Shard.init max).run es = some s ∧ n ≤ s.waiting.length ∧ s.up = true by
    obtain ⟨es, s, h1, h2, _⟩ := this n; exact ⟨es, s, h1, h2⟩
  intro n
  induction n with
  | zero => exact ⟨[], _, rfl, Nat.zero_le _, rfl⟩
  | succ n ih =>
    obtain ⟨es, s, h1, h2, h3⟩ := ih
    refine ⟨es ++ [.accept], { s with accepted := s.accepted + 1, waiting := s.waiting ++ [s.accepted] },
      ?_, by simp; omega, h3⟩
    rw [run_append, h1]
    simp [Shard.run, Shard.step, h3]

example : ((Shard.init 1).run [.accept, .accept, .admit 0]).map (fun s => (s.serving, s.waiting, s.permits))
    = some ([0], [1], 0) := by decide
example : (Shard.init 1).run [.accept, .accept, .admit 0, .admit 1] = none := by decide
example : ((Shard.init 1).run [.accept, .accept, .admit 0, .finish 0, .admit 1]).map (·.serving) = some [1] := by
  decide

/-- **C39 is false of the code**: after one failing `accept` or `local_addr` the shard accepts nothing
ever again, whatever happens next. -/
theorem C39_error_stops_shard (max : Nat) (before after : List Event) (e : Event)
    (he : e = .acceptErr ∨ e = .localAddrErr) (s s' : Shard)
    (h : (Shard.init max).run before = some s)
    (h' : (Shard.init max).run (before ++ e :: after) = some s') : s'.accepted = s.accepted ∧ s'.up = false := by
  rw [run_append, h] at h'
  have key : ∀ es (t t' : Shard), t.up = false → t.run es = some t' → t'.accepted = t.accepted ∧ t'.up = false := by
    intro es
    induction es with
    | nil => intro t t' hu ht; simp only [Shard.run, Option.some.injEq] at ht; subst ht; exact ⟨rfl, hu⟩
    | cons e es ih =>
      intro t t' hu ht
      simp only [Shard.run] at ht
      cases hst : t.step e with
      | none => rw [hst] at ht; simp at ht
      | some u =>
        rw [hst] at ht
        have hu' : u.accepted = t.accepted ∧ u.up = false := by
          cases e <;> simp only [Shard.step, hu, Bool.false_eq_true, if_false, reduceCtorEq] at hst
          · split at hst
            · simp only [Option.some.injEq] at hst; subst hst; exact ⟨rfl, rfl⟩
            · simp at hst
          · split at hst
            · simp only [Option.some.injEq] at hst; subst hst; exact ⟨rfl, rfl⟩
            · simp at hst
        have := ih u t' hu'.2 ht
        exact ⟨this.1.trans hu'.1, this.2⟩
  simp only [Option.bind_some, Shard.run] at h'
  cases hst : s.step e with
  | none => rw [hst] at h'; simp at h'
  | some t =>
    rw [hst] at h'
    have ht : t.accepted = s.accepted ∧ t.up = false := by
      rcases he with rfl | rfl <;>
      · simp only [Shard.step] at hst
        split at hst
        · simp only [Option.some.injEq] at hst; subst hst; exact ⟨rfl, rfl⟩
        · simp at hst
    have := key after t s' ht.2 h'
    exact ⟨this.1.trans ht.1, this.2⟩

example : ((Shard.init 2).run [.accept, .acceptErr, .admit 0]).map (fun s => (s.accepted, s.up)) =
    some (1, false) := by decide

/-- **C39**, what does hold: without such failures the shard keeps accepting, whatever the connections do. -/
theorem C39_keeps_accepting_partial (max : Nat) (es : List Event) (s : Shard)
    (hno : ∀ e ∈ es, e ≠ .acceptErr ∧ e ≠ .localAddrErr) (h : (Shard.init max).run es = some s) :
    ∃ s', s.step .accept = some s' := by
  have key : ∀ es (t t' : Shard), (∀ e ∈ es, e ≠ .acceptErr ∧ e ≠ .localAddrErr) → t.up = true →
      t.run es = some t' → t'.up = true := by
    intro es
    induction es with
    | nil => intro t t' _ hu ht; simp only [Shard.run, Option.some.injEq] at ht; subst ht; exact hu
    | cons e es ih =>
      intro t t' hn hu ht
      simp only [Shard.run] at ht
      cases hst : t.step e with
      | none => rw [hst] at ht; simp at ht
      | some u =>
        rw [hst] at ht
        refine ih u t' (fun e he => hn e (by simp [he])) ?_ ht
        have hne := hn e (by simp)
        cases e <;> simp only [Shard.step, ne_eq, reduceCtorEq, not_true_eq_false, not_false_eq_true,
          and_self, and_true, and_false] at hst hne <;> split at hst <;>
          simp only [Option.some.injEq, reduceCtorEq] at hst <;> subst hst <;> exact hu
  have := key es _ _ hno rfl h
  exact ⟨_, by simp only [Shard.step, this, if_true]; rfl⟩

end Laya.Server
