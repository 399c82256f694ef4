import Verif.Proofs.Scrape
import Verif.Props.Adaptor

/-!
# Property of the metrics of many requests: C63

Any number of requests, each with its own ResponseWriter, handler, Body and `OnPanic`, come to a server and their goroutines are interleaved in any way.
-/

set_option autoImplicit false

namespace Verif
open Spec

/-- The request is one that an Adaptor handles. -/
def IsRequest (q : Served) : Prop :=
  ∃ (ω β : Type) (N : RW ω) (raises isHEAD : Bool) (B : BodyOps β) (fuel : Nat) (assertErr : Bool) (onPanic : PanicArg → Res Unit)
    (h : Handled β) (w : ω), q = request N raises isHEAD B fuel assertErr onPanic h w

theorem begun_run (s : Server) (ms : List Move) : (s.run ms).begun = s.begun ++ arrivals ms := by
  induction ms generalizing s with
  | nil => simp [Server.run, arrivals]
  | cons m ms ih =>
    show ((s.step m).run ms).begun = _
    rw [ih]
    cases m with
    | arrive q => simp [Server.step, arrivals]
    | tick i =>
      simp only [Server.step]
      split <;> simp [arrivals]

/-- What a request does to the metrics. -/
theorem request_shape (q : Served) (hq : IsRequest q) :
    (q.2.1 = [] ∧ q.2.2 ≠ .ret ()) ∨
    ∃ k pv a, q.2.1 = metricsOf (itoa k) (accepted q.1) pv a ∧ (k ≠ 0 ∧ statuses q.1 = [k] ∨ k = 0 ∧ statuses q.1 = [500]) := by
  obtain ⟨ω, β, N, raises, isHEAD, B, fuel, assertErr, onPanic, h, w, rfl⟩ := hq
  rw [request_eq]
  obtain ⟨h0, h4 | h4⟩ := adaptor_spec N raises (Writer.kindFor N.record) B fuel assertErr onPanic h _ (winvariant_init w isHEAD)
  · exact .inl ⟨h4.1, h4.2.1⟩
  · obtain ⟨hs, hn, -, hev, -, -⟩ := h4
    refine .inr ⟨_, _, _, hev, ?_⟩
    dsimp only at hs hn ⊢
    have hst : statuses (adaptor (Writer.wr N.record raises (Writer.kindFor N.record)) B fuel assertErr onPanic h
        (Writer.init ⟨w, []⟩ isHEAD)).1.next.log = [(adaptor (Writer.wr N.record raises (Writer.kindFor N.record)) B fuel assertErr
          onPanic h (Writer.init ⟨w, []⟩ isHEAD)).1.status] := by
      rcases h0.status with h | h
      · exact absurd h.1 hn
      · exact h.2.2
    rw [hst, hs]
    split <;> simp_all

/-! ## The metrics show exactly what was done -/

/-- **C63.** At every time, the metrics show exactly what the goroutines have done to them so far, in whatever order: nothing is lost and nothing is counted
twice. -/
theorem C63_adds_up (ms : List Move) : Displays (Server.run {} ms).reg (Server.run {} ms).done.flatten := by
  obtain ⟨l, h⟩ := split_run {} [] split_init ms
  rw [split_done h]
  exact h.shows

/-! ## When all is quiet -/

theorem quiet_done (ms : List Move) (hquiet : (Server.run {} ms).Quiet) :
    (Server.run {} ms).done = (arrivals ms).map (·.2.1) := by
  obtain ⟨l, h⟩ := split_run {} [] split_init ms
  have hb := begun_run {} ms
  rw [h.begun] at hb
  simp only [List.nil_append] at hb
  rw [split_done h, ← hb, List.map_map]
  refine List.map_congr_left fun x hx => ?_
  have := h.parts x hx
  rw [hquiet x.2.2 (by rw [h.todo]; exact List.mem_map_of_mem hx)] at this
  simpa using this.symm

/-- All requests have returned to the net/http package. -/
def AllReturned (l : List Served) : Prop := ∀ q ∈ l, IsRequest q ∧ q.2.2 = .ret ()

theorem returned_shape {q : Served} (hq : IsRequest q ∧ q.2.2 = .ret ()) :
    ∃ k pv a, q.2.1 = metricsOf (itoa k) (accepted q.1) pv a ∧ (k ≠ 0 ∧ statuses q.1 = [k] ∨ k = 0 ∧ statuses q.1 = [500]) := by
  rcases request_shape q hq.1 with h | h
  · exact absurd hq.2 h.2
  · exact h

/-- **C63.** When all requests have been dealt with, the metrics agree with what the clients got: every request is counted once; the bytes are those which
the clients' ResponseWriters accepted, in sum and in each bucket of the histogram; and every panic counted was reported to `OnPanic`. -/
theorem C63_quiet (ms : List Move) (hq : AllReturned (arrivals ms)) (hquiet : (Server.run {} ms).Quiet) :
    (Server.run {} ms).reg.requests.total = (arrivals ms).length ∧
    (Server.run {} ms).reg.latencyHist = (arrivals ms).length ∧
    (Server.run {} ms).reg.sendBytes.total = ((arrivals ms).map fun q => accepted q.1).sum ∧
    HistShows byteBuckets (Server.run {} ms).reg.sendHist ((arrivals ms).map fun q => accepted q.1) ∧
    (Server.run {} ms).reg.panics = (arrivals ms).countP (fun q => !(panicsReported q.2.1).isEmpty) ∧
    (Server.run {} ms).reg.reported.length = (Server.run {} ms).reg.panics := by
  have hs := C63_adds_up ms
  rw [quiet_done ms hquiet] at hs
  generalize hl : arrivals ms = l at hs hq ⊢
  have key : (requestsCounted (l.map (·.2.1)).flatten).length = l.length ∧ latencyObserved (l.map (·.2.1)).flatten = l.length ∧
      (sendCounted (l.map (·.2.1)).flatten).map (·.2) = l.map (fun q => accepted q.1) ∧
      sendObserved (l.map (·.2.1)).flatten = l.map (fun q => accepted q.1) ∧
      panicsCounted (l.map (·.2.1)).flatten = l.countP (fun q => !(panicsReported q.2.1).isEmpty) ∧
      (panicsReported (l.map (·.2.1)).flatten).length = panicsCounted (l.map (·.2.1)).flatten := by
    clear hs hl
    induction l with
    | nil => decide
    | cons q l ih =>
      obtain ⟨i1, i2, i3, i4, i5, i6⟩ := ih fun q' h => hq q' (List.mem_cons_of_mem _ h)
      obtain ⟨k, pv, a, h, -⟩ := returned_shape (hq q List.mem_cons_self)
      simp only [requestsCounted, latencyObserved, sendCounted, sendObserved, panicsCounted, panicsReported, List.map_cons, List.flatten_cons,
        List.filterMap_append, List.filter_append, List.countP_append, List.countP_cons, List.length_append, List.map_append] at i1 i2 i3 i4 i5 i6 ⊢
      rw [i1, i2, i3, i4, i5, h]
      rw [i5] at i6
      rw [i6]
      cases pv <;> simp [metricsOf] <;> omega
  obtain ⟨k1, k2, k3, k4, k5, k6⟩ := key
  refine ⟨by rw [hs.requestsTotal, k1], by rw [hs.latencyHist, k2], by rw [hs.sendTotal, k3], k4 ▸ hs.sendHist, by rw [hs.panics, k5], ?_⟩
  rw [hs.reported.length_eq, k6, hs.panics]

theorem count_label (k c : Int) : [itoa k].count (itoa c) = if k = c then 1 else 0 := by
  rw [List.count_singleton]
  by_cases h : k = c
  · simp [h]
  · rw [if_neg h, if_neg]
    intro e
    exact h (itoa_inj (by simpa using e))

theorem sumFor_append (c : GoStr) (l l' : List (GoStr × Int)) : sumFor c (l ++ l') = sumFor c l + sumFor c l' := by
  simp [sumFor]

theorem sumFor_itoa (k c n : Int) : sumFor (itoa c) [(itoa k, n)] = if k = c then n else 0 := by
  have := sumFor_snoc (itoa c) (itoa k) n []
  rw [List.nil_append] at this
  rw [this]
  by_cases h : k = c
  · simp [h, sumFor]
  · rw [if_neg h, if_neg fun e => h (itoa_inj e)]
    rfl

/-- The bytes accepted by those clients that received the status `c`. -/
def acceptedWith (c : Int) (l : List Served) : Int := ((l.filter fun q => decide (statuses q.1 = [c])).map fun q => accepted q.1).sum

/-- **C63.** When all requests have been dealt with, the counters of a status other than 500 are those of the clients that received this status. -/
theorem C63_by_status (ms : List Move) (hq : AllReturned (arrivals ms)) (hquiet : (Server.run {} ms).Quiet) (c : Int) (h0 : c ≠ 0) (h5 : c ≠ 500) :
    (Server.run {} ms).reg.requests.get (itoa c) = (arrivals ms).countP (fun q => decide (statuses q.1 = [c])) ∧
    (Server.run {} ms).reg.latency.get (itoa c) = (arrivals ms).countP (fun q => decide (statuses q.1 = [c])) ∧
    (Server.run {} ms).reg.sendBytes.get (itoa c) = acceptedWith c (arrivals ms) := by
  have hs := C63_adds_up ms
  rw [quiet_done ms hquiet] at hs
  generalize hl : arrivals ms = l at hs hq ⊢
  rw [hs.requests, hs.latency, hs.sendBytes]
  clear hs hl
  induction l with
  | nil => simp [requestsCounted, latencyCounted, sendCounted, sumFor, acceptedWith]
  | cons q l ih =>
    obtain ⟨i1, i2, i3⟩ := ih fun q' h => hq q' (List.mem_cons_of_mem _ h)
    obtain ⟨k, pv, a, h, hk⟩ := returned_shape (hq q List.mem_cons_self)
    have e : (k = c) ↔ statuses q.1 = [c] := by
      rcases hk with ⟨hk, hst⟩ | ⟨hk, hst⟩
      · rw [hst]; simp
      · rw [hst]; simp; omega
    have f1 : requestsCounted q.2.1 = [itoa k] := by rw [h]; exact (metricsOf_facts _ _ _ _).1
    have f2 : sendCounted q.2.1 = [(itoa k, accepted q.1)] := by rw [h]; exact (metricsOf_facts _ _ _ _).2.1
    have f3 : latencyCounted q.2.1 = [itoa k] := by rw [h]; cases pv <;> simp [metricsOf, latencyCounted]
    simp only [requestsCounted, latencyCounted, sendCounted, acceptedWith, List.map_cons, List.flatten_cons, List.filterMap_append, List.count_append,
      sumFor_append, List.countP_cons, List.filter_cons] at i1 i2 i3 f1 f2 f3 ⊢
    rw [f1, f2, f3]
    simp only [Int.natCast_add, i1, i2, i3, count_label, sumFor_itoa, e, decide_eq_true_eq]
    by_cases hst : statuses q.1 = [c] <;> simp [hst] <;> omega

/-- **C63.** The clients that received 500 are those under the labels "500" and "0" together. -/
theorem C63_by_status_500 (ms : List Move) (hq : AllReturned (arrivals ms)) (hquiet : (Server.run {} ms).Quiet) :
    (Server.run {} ms).reg.requests.get (itoa 500) + (Server.run {} ms).reg.requests.get (itoa 0) =
      (arrivals ms).countP (fun q => decide (statuses q.1 = [500])) ∧
    (Server.run {} ms).reg.latency.get (itoa 500) + (Server.run {} ms).reg.latency.get (itoa 0) =
      (arrivals ms).countP (fun q => decide (statuses q.1 = [500])) ∧
    (Server.run {} ms).reg.sendBytes.get (itoa 500) + (Server.run {} ms).reg.sendBytes.get (itoa 0) = acceptedWith 500 (arrivals ms) := by
  have hs := C63_adds_up ms
  rw [quiet_done ms hquiet] at hs
  generalize hl : arrivals ms = l at hs hq ⊢
  rw [hs.requests, hs.latency, hs.sendBytes, hs.requests, hs.latency, hs.sendBytes]
  clear hs hl
  induction l with
  | nil => simp [requestsCounted, latencyCounted, sendCounted, sumFor, acceptedWith]
  | cons q l ih =>
    obtain ⟨i1, i2, i3⟩ := ih fun q' h => hq q' (List.mem_cons_of_mem _ h)
    obtain ⟨k, pv, a, h, hk⟩ := returned_shape (hq q List.mem_cons_self)
    have f1 : requestsCounted q.2.1 = [itoa k] := by rw [h]; exact (metricsOf_facts _ _ _ _).1
    have f2 : sendCounted q.2.1 = [(itoa k, accepted q.1)] := by rw [h]; exact (metricsOf_facts _ _ _ _).2.1
    have f3 : latencyCounted q.2.1 = [itoa k] := by rw [h]; cases pv <;> simp [metricsOf, latencyCounted]
    simp only [requestsCounted, latencyCounted, sendCounted, acceptedWith, List.map_cons, List.flatten_cons, List.filterMap_append, List.count_append,
      sumFor_append, List.countP_cons, List.filter_cons] at i1 i2 i3 f1 f2 f3 ⊢
    rw [f1, f2, f3]
    simp only [count_label, sumFor_itoa]
    by_cases hst : statuses q.1 = [500]
    · have : k = 500 ∨ k = 0 := by
        rcases hk with ⟨hk, hst'⟩ | ⟨hk, hst'⟩
        · rw [hst] at hst'; simp at hst'; omega
        · exact .inr hk
      simp only [hst, decide_true, if_true, List.map_cons, List.sum_cons]
      rcases this with rfl | rfl
      · rw [if_neg (show ¬ (500 : Int) = 0 by decide), if_neg (show ¬ (500 : Int) = 0 by decide)]
        simp only [if_true]
        omega
      · rw [if_neg (show ¬ (0 : Int) = 500 by decide), if_neg (show ¬ (0 : Int) = 500 by decide)]
        simp only [if_true]
        omega
    · have h1 : k ≠ 500 := by
        rcases hk with ⟨hk, hst'⟩ | ⟨hk, hst'⟩
        · rw [hst'] at hst; simpa using hst
        · omega
      have h2 : k ≠ 0 := by
        rcases hk with ⟨hk, hst'⟩ | ⟨hk, hst'⟩
        · exact hk
        · exact absurd hst' hst
      rw [if_neg h1, if_neg h2, if_neg h1, if_neg h2]
      simp only [hst, decide_false, Bool.false_eq_true, if_false]
      omega

/-! ## At any time -/

theorem done_mem (ms : List Move) (e : MEv) (he : e ∈ (Server.run {} ms).done.flatten) : ∃ q ∈ arrivals ms, e ∈ q.2.1 := by
  obtain ⟨l, h⟩ := split_run {} [] split_init ms
  have hb := begun_run {} ms
  rw [h.begun] at hb
  simp only [List.nil_append] at hb
  rw [split_done h, List.mem_flatten] at he
  obtain ⟨d, hd, he⟩ := he
  obtain ⟨x, hx, rfl⟩ := List.mem_map.1 hd
  refine ⟨x.1, by rw [← hb]; exact List.mem_map_of_mem hx, ?_⟩
  rw [h.parts x hx]
  exact List.mem_append_left _ he

/-- **C63.** The received-bytes metrics never show anything but zeros. -/
theorem C63_recv (ms : List Move) (hq : ∀ q ∈ arrivals ms, IsRequest q) :
    (∀ c, (Server.run {} ms).reg.recvBytes.get c = 0) ∧ (Server.run {} ms).reg.recvHist.sum = 0 ∧
    ∀ j, j ≤ 6 → (Server.run {} ms).reg.recvHist.upTo j = (Server.run {} ms).reg.recvHist.count := by
  have hs := C63_adds_up ms
  have hz : ∀ e ∈ (Server.run {} ms).done.flatten, (∀ c n, e = .recvBytesTotal c n → n = 0) ∧ ∀ n, e = .recvBytesHist n → n = 0 := by
    intro e he
    obtain ⟨q, hq', he⟩ := done_mem ms e he
    rcases request_shape q (hq q hq') with h | ⟨k, pv, a, h, -⟩
    · rw [h.1] at he; simp at he
    · rw [h] at he
      cases pv <;> simp [metricsOf] at he <;> constructor <;> intros <;> subst e <;> simp_all
  generalize (Server.run {} ms).done.flatten = ev at hs hz
  have z0 : ∀ l : List Int, (∀ x ∈ l, x = 0) → l.sum = 0 := by
    intro l
    induction l with
    | nil => simp
    | cons x l ih =>
      intro h
      rw [List.sum_cons, h x List.mem_cons_self, ih fun y hy => h y (List.mem_cons_of_mem _ hy)]
      rfl
  have z1 : ∀ n ∈ recvObserved ev, n = 0 := by
    intro n hn
    obtain ⟨e, he, hf⟩ := List.mem_filterMap.1 hn
    cases e <;> simp at hf
    subst hf
    exact (hz _ he).2 _ rfl
  have z2 : ∀ p ∈ recvCounted ev, p.2 = 0 := by
    intro n hn
    obtain ⟨e, he, hf⟩ := List.mem_filterMap.1 hn
    cases e <;> simp at hf
    subst hf
    exact (hz _ he).1 _ _ rfl
  refine ⟨fun c => ?_, ?_, fun j hj => ?_⟩
  · rw [hs.recvBytes, sumFor]
    refine z0 _ fun x hx => ?_
    obtain ⟨p, hp, rfl⟩ := List.mem_map.1 hx
    exact z2 p (List.mem_filter.1 hp).1
  · rw [hs.recvHist.sum]
    exact z0 _ z1
  · rw [hs.recvHist.count]
    rcases Nat.lt_or_ge j 6 with h | h
    · obtain ⟨b, hb, hpos⟩ : ∃ b, byteBuckets[j]? = some b ∧ 0 ≤ b := by
        have : ∀ j : Fin 6, ∃ b, byteBuckets[j.1]? = some b ∧ 0 ≤ b := by
          intro j
          match j with
          | ⟨0, _⟩ => exact ⟨_, rfl, by decide⟩
          | ⟨1, _⟩ => exact ⟨_, rfl, by decide⟩
          | ⟨2, _⟩ => exact ⟨_, rfl, by decide⟩
          | ⟨3, _⟩ => exact ⟨_, rfl, by decide⟩
          | ⟨4, _⟩ => exact ⟨_, rfl, by decide⟩
          | ⟨5, _⟩ => exact ⟨_, rfl, by decide⟩
        exact this ⟨j, h⟩
      rw [hs.recvHist.upTo j b hb, List.countP_eq_length]
      intro v hv
      simpa [z1 v hv] using hpos
    · obtain rfl : j = 6 := by omega
      exact hs.recvHist.all

/-- What is true of the part of the work that a goroutine has done. -/
theorem part_facts (code : GoStr) (n : Int) (hn : 0 ≤ n) (pv : Option Panic) (a : Bool) (d rest : List MEv) (h : metricsOf code n pv a = d ++ rest) :
    (sendObserved d).length ≤ latencyObserved d ∧ latencyObserved d ≤ (requestsCounted d).length ∧
    (requestsCounted d).length ≤ (sendObserved d).length + (if rest.isEmpty then 0 else 1) ∧ (requestsCounted d).length ≤ 1 ∧
    (sendObserved d).sum ≤ ((sendCounted d).map (·.2)).sum ∧
    (panicsReported d).length ≤ panicsCounted d ∧ panicsCounted d ≤ (panicsReported d).length + (if rest.isEmpty then 0 else 1) ∧
    (panicsReported d).length ≤ (sendObserved d).length := by
  have hd : d = (metricsOf code n pv a).take d.length := by rw [h]; simp
  have hr : rest = (metricsOf code n pv a).drop d.length := by rw [h]; simp
  generalize d.length = m at hd hr
  subst hd hr
  clear h
  cases pv with
  | none =>
    match m with
    | 0 | 1 | 2 | 3 | 4 | 5 | 6 | m + 7 =>
      simp [metricsOf, sendObserved, latencyObserved, requestsCounted, sendCounted, panicsReported, panicsCounted, hn]
  | some p =>
    match m with
    | 0 | 1 | 2 | 3 | 4 | 5 | 6 | 7 | 8 | m + 9 =>
      simp [metricsOf, sendObserved, latencyObserved, requestsCounted, sendCounted, panicsReported, panicsCounted, hn]

/-- **C63.** What a scrape can see at any time: the histograms are never ahead of the counters, and are behind by at most the number of requests that
are just being counted; the same is true of `OnPanic` and the counter of panics. -/
theorem C63_scrape (ms : List Move) (hq : ∀ q ∈ arrivals ms, IsRequest q) :
    ((Server.run {} ms).reg.sendHist.count ≤ (Server.run {} ms).reg.latencyHist ∧
     ((Server.run {} ms).reg.latencyHist : Int) ≤ (Server.run {} ms).reg.requests.total ∧
     (Server.run {} ms).reg.requests.total ≤ (Server.run {} ms).reg.sendHist.count + (Server.run {} ms).inFlight ∧
     (Server.run {} ms).reg.requests.total ≤ (arrivals ms).length) ∧
    (Server.run {} ms).reg.sendHist.sum ≤ (Server.run {} ms).reg.sendBytes.total ∧
    ((Server.run {} ms).reg.reported.length ≤ (Server.run {} ms).reg.panics ∧
     (Server.run {} ms).reg.panics ≤ (Server.run {} ms).reg.reported.length + (Server.run {} ms).inFlight ∧
     (Server.run {} ms).reg.reported.length ≤ (Server.run {} ms).reg.sendHist.count) := by
  have hs := C63_adds_up ms
  obtain ⟨l, h⟩ := split_run {} [] split_init ms
  have hb := begun_run {} ms
  rw [h.begun] at hb
  simp only [List.nil_append] at hb
  rw [← hb] at hq ⊢
  rw [split_done h] at hs
  have ht := h.todo
  have hp := h.parts
  rw [hs.sendHist.count, hs.latencyHist, hs.requestsTotal, hs.sendHist.sum, hs.sendTotal, hs.reported.length_eq, hs.panics, Server.inFlight, ht]
  clear hs hb h ht
  induction l with
  | nil => decide
  | cons x l ih =>
    obtain ⟨⟨i1, i2, i3, i4⟩, i5, i6, i7, i8⟩ := ih (fun q hq' => hq q (by simp only [List.map_cons, List.mem_cons]; exact .inr hq'))
      (fun y hy => hp y (List.mem_cons_of_mem _ hy))
    have hx := hp x List.mem_cons_self
    have key : (sendObserved x.2.1).length ≤ latencyObserved x.2.1 ∧ latencyObserved x.2.1 ≤ (requestsCounted x.2.1).length ∧
        (requestsCounted x.2.1).length ≤ (sendObserved x.2.1).length + (if x.2.2.isEmpty then 0 else 1) ∧ (requestsCounted x.2.1).length ≤ 1 ∧
        (sendObserved x.2.1).sum ≤ ((sendCounted x.2.1).map (·.2)).sum ∧
        (panicsReported x.2.1).length ≤ panicsCounted x.2.1 ∧
        panicsCounted x.2.1 ≤ (panicsReported x.2.1).length + (if x.2.2.isEmpty then 0 else 1) ∧
        (panicsReported x.2.1).length ≤ (sendObserved x.2.1).length := by
      rcases request_shape x.1 (hq _ (by simp)) with h | ⟨k, pv, a, h, -⟩
      · rw [h.1] at hx
        obtain ⟨h1, h2⟩ := List.append_eq_nil_iff.1 hx.symm
        rw [h1, h2]
        decide
      · exact part_facts _ _ (accepted_nonneg _) pv a _ _ (h ▸ hx)
    obtain ⟨k1, k2, k3, k4, k5, k6, k7, k8⟩ := key
    simp only [requestsCounted, latencyObserved, sendCounted, sendObserved, panicsCounted, panicsReported, List.map_cons, List.flatten_cons,
      List.filterMap_append, List.filter_append, List.countP_append, List.countP_cons, List.length_append, List.map_append, List.sum_append,
      List.length_cons] at i1 i2 i3 i4 i5 i6 i7 i8 k1 k2 k3 k4 k5 k6 k7 k8 ⊢
    cases hr : x.2.2.isEmpty <;> simp only [hr, if_true, Bool.false_eq_true, if_false, Bool.not_true, Bool.not_false] at k3 k7 ⊢ <;>
      (push_cast; omega)

/-- **C63.** At any time, a label under which something is counted is the status that some client has received, or "0" if one received 500. -/
theorem C63_labels (ms : List Move) (hq : ∀ q ∈ arrivals ms, IsRequest q) (c : GoStr) (hc : (Server.run {} ms).reg.requests.get c ≠ 0) :
    ∃ q ∈ arrivals ms, ∃ k, c = itoa k ∧ (statuses q.1 = [k] ∨ k = 0 ∧ statuses q.1 = [500]) := by
  rw [(C63_adds_up ms).requests] at hc
  have hm : c ∈ requestsCounted (Server.run {} ms).done.flatten := List.count_pos_iff.1 (by omega)
  obtain ⟨e, he, hf⟩ := List.mem_filterMap.1 hm
  obtain ⟨q, hq', heq⟩ := done_mem ms e he
  refine ⟨q, hq', ?_⟩
  rcases request_shape q (hq q hq') with h | ⟨k, pv, a, h, hk⟩
  · rw [h.1] at heq; simp at heq
  · refine ⟨k, ?_, hk.imp (·.2) id⟩
    have h1 : c ∈ requestsCounted q.2.1 := List.mem_filterMap.2 ⟨e, heq, hf⟩
    rw [h, (metricsOf_facts _ _ _ _).1] at h1
    simpa using h1

/-! ## Never less -/

theorem Spec.NotLess.refl (r : Registry) : NotLess r r :=
  ⟨Nat.le_refl _, fun _ => Int.le_refl _, fun _ => Int.le_refl _, fun _ => Int.le_refl _, fun _ => Int.le_refl _, Nat.le_refl _,
    ⟨Nat.le_refl _, Int.le_refl _, fun _ => Nat.le_refl _⟩, ⟨Nat.le_refl _, Int.le_refl _, fun _ => Nat.le_refl _⟩, List.prefix_rfl⟩

theorem Spec.NotLess.trans {r s t : Registry} (h : NotLess r s) (h' : NotLess s t) : NotLess r t :=
  ⟨Nat.le_trans h.panics h'.panics, fun c => Int.le_trans (h.requests c) (h'.requests c), fun c => Int.le_trans (h.latency c) (h'.latency c),
    fun c => Int.le_trans (h.recvBytes c) (h'.recvBytes c), fun c => Int.le_trans (h.sendBytes c) (h'.sendBytes c),
    Nat.le_trans h.latencyHist h'.latencyHist,
    ⟨Nat.le_trans h.recvHist.1 h'.recvHist.1, Int.le_trans h.recvHist.2.1 h'.recvHist.2.1, fun j => Nat.le_trans (h.recvHist.2.2 j) (h'.recvHist.2.2 j)⟩,
    ⟨Nat.le_trans h.sendHist.1 h'.sendHist.1, Int.le_trans h.sendHist.2.1 h'.sendHist.2.1, fun j => Nat.le_trans (h.sendHist.2.2 j) (h'.sendHist.2.2 j)⟩,
    h.reported.trans h'.reported⟩

/-- The event adds nothing negative. -/
def NonNeg : MEv → Prop
  | .recvBytesTotal _ n | .sendBytesTotal _ n | .recvBytesHist n | .sendBytesHist n => 0 ≤ n
  | _ => True

theorem add_le (v : Vec) (c d : GoStr) (n : Int) (h : 0 ≤ n) : v.get d ≤ (v.add c n).get d := by
  rw [Vec.get_add]; split <;> omega

theorem observe_le (h : Hist) (n : Int) (hn : 0 ≤ n) :
    h.count ≤ (h.observe byteBuckets n).count ∧ h.sum ≤ (h.observe byteBuckets n).sum ∧ ∀ j, h.upTo j ≤ (h.observe byteBuckets n).upTo j := by
  refine ⟨Nat.le_succ _, by simp only [Hist.observe]; omega, fun j => ?_⟩
  simp only [Hist.upTo, Hist.observe, sum_take_modify]
  omega

theorem apply_notLess (r : Registry) (e : MEv) (he : NonNeg e) : NotLess r (r.apply e) := by
  have h := NotLess.refl r
  cases e with
  | panicsTotal => exact { h with panics := Nat.le_succ _ }
  | requestsTotal c => exact { h with requests := fun d => add_le _ c d 1 (by decide) }
  | latencyTotal c => exact { h with latency := fun d => add_le _ c d 1 (by decide) }
  | recvBytesTotal c n => exact { h with recvBytes := fun d => add_le _ c d n he }
  | sendBytesTotal c n => exact { h with sendBytes := fun d => add_le _ c d n he }
  | latencyHist => exact { h with latencyHist := Nat.le_succ _ }
  | recvBytesHist n => exact { h with recvHist := observe_le _ n he }
  | sendBytesHist n => exact { h with sendHist := observe_le _ n he }
  | onPanic a => exact { h with reported := List.prefix_append _ _ }

theorem run_notLess (s : Server) (hs : ∀ t ∈ s.todo, ∀ e ∈ t, NonNeg e) (ms : List Move) (hm : ∀ q ∈ arrivals ms, ∀ e ∈ q.2.1, NonNeg e) :
    NotLess s.reg (s.run ms).reg ∧ ∀ t ∈ (s.run ms).todo, ∀ e ∈ t, NonNeg e := by
  induction ms generalizing s with
  | nil => exact ⟨NotLess.refl _, hs⟩
  | cons m ms ih =>
    have step : NotLess s.reg (s.step m).reg ∧ ∀ t ∈ (s.step m).todo, ∀ e ∈ t, NonNeg e := by
      cases m with
      | arrive q =>
        refine ⟨NotLess.refl _, fun t ht => ?_⟩
        simp only [Server.step, List.mem_append, List.mem_singleton] at ht
        rcases ht with ht | rfl
        · exact hs t ht
        · exact hm q (by simp [arrivals])
      | tick i =>
        simp only [Server.step]
        split
        · rename_i e rest hi
          have := hs _ (List.mem_of_getElem? hi)
          refine ⟨apply_notLess _ _ (this e List.mem_cons_self), fun t ht => ?_⟩
          rcases List.mem_or_eq_of_mem_set ht with ht | rfl
          · exact hs t ht
          · exact fun e' he' => this e' (List.mem_cons_of_mem _ he')
        · exact ⟨NotLess.refl _, hs⟩
    obtain ⟨h1, h2⟩ := ih (s.step m) step.2 fun q hq => hm q (by
      cases m with
      | arrive q' => simp only [arrivals, List.filterMap_cons, List.mem_cons]; exact .inr hq
      | tick i => exact hq)
    exact ⟨step.1.trans h1, h2⟩

/-- **C63.** No counter, no sum and no bucket ever becomes smaller. -/
theorem C63_never_less (ms ms' : List Move) (hq : ∀ q ∈ arrivals (ms ++ ms'), IsRequest q) :
    NotLess (Server.run {} ms).reg (Server.run {} (ms ++ ms')).reg := by
  have hn : ∀ q, IsRequest q → ∀ e ∈ q.2.1, NonNeg e := by
    intro q h e he
    rcases request_shape q h with h | ⟨k, pv, a, h, -⟩
    · rw [h.1] at he; simp at he
    · have := accepted_nonneg q.1
      rw [h] at he
      cases pv <;> simp [metricsOf] at he <;> rcases he with rfl | rfl | rfl | rfl | rfl | rfl | he <;> simp_all [NonNeg]
      all_goals (rcases he with rfl | rfl | rfl <;> simp_all [NonNeg])
  simp only [arrivals, List.filterMap_append, List.mem_append] at hq
  have h1 := run_notLess {} (by simp) ms fun q h => hn q (hq q (.inl h))
  have h2 := run_notLess _ h1.2 ms' fun q h => hn q (hq q (.inr h))
  rw [show Server.run {} (ms ++ ms') = (Server.run {} ms).run ms' from List.foldl_append]
  exact h2.1

/-! ## Two requests at the same time -/

/-- A request that is answered with 404 and two bytes. -/
def exGood : Served := request exRW false false (BodyOps.ofFam MemFam.step true 0) 5 true (fun _ => .ret ()) (.resp exResp) ()
/-- A request whose handler panics. -/
def exBad : Served := request exRW false false BodyOps.nil 5 true (fun _ => .ret ()) (.panic .nilDeref) ()

theorem exGood_isRequest : IsRequest exGood := ⟨_, _, _, _, _, _, _, _, _, _, _, rfl⟩
theorem exBad_isRequest : IsRequest exBad := ⟨_, _, _, _, _, _, _, _, _, _, _, rfl⟩

/-- Both arrive; the goroutines take turns. -/
def exMoves (n : Nat) : List Move := [.arrive exGood, .arrive exBad] ++ (List.range n).flatMap fun _ => [.tick 0, .tick 1]

example (n : Nat) : arrivals (exMoves n) = [exGood, exBad] := by
  have : ∀ l : List Nat, arrivals (l.flatMap fun _ => [.tick 0, .tick 1]) = [] := by
    intro l
    induction l with
    | nil => rfl
    | cons x l ih => simpa [arrivals] using ih
  simp only [exMoves, arrivals, List.filterMap_append] at this ⊢
  rw [this]
  rfl
/-- All is quiet in the end. -/
example : (Server.run {} (exMoves 9)).todo = [[], []] := by decide +kernel
example : exGood.2.2 = .ret () ∧ exBad.2.2 = .ret () := by decide +kernel
example : (Server.run {} (exMoves 9)).reg =
    { panics := 1, requests := [(lit "404", 1), (lit "0", 1)], latency := [(lit "404", 1), (lit "0", 1)],
      recvBytes := [(lit "404", 0), (lit "0", 0)], sendBytes := [(lit "404", 2), (lit "0", 0)], latencyHist := 2,
      recvHist := { count := 2, sum := 0, buckets := [2, 0, 0, 0, 0, 0, 0] }, sendHist := { count := 2, sum := 2, buckets := [2, 0, 0, 0, 0, 0, 0] },
      reported := [.itself .nilDeref] } := by decide +kernel
/-- In between, the counters are ahead of the histograms. -/
example : (Server.run {} (exMoves 3)).reg.requests.total = 2 ∧ (Server.run {} (exMoves 3)).reg.sendHist.count = 0 ∧
    (Server.run {} (exMoves 3)).inFlight = 2 ∧ (Server.run {} (exMoves 3)).reg.panics = 1 ∧ (Server.run {} (exMoves 3)).reg.reported = [] := by
  decide +kernel
/-- The buckets. -/
example : byteBuckets = [1024, 4096, 16384, 65536, 262144, 1048576] := by decide +kernel
example : (((Hist.observe byteBuckets { buckets := List.replicate 7 0 } 1024).observe byteBuckets 1025).observe byteBuckets 2000000).buckets =
    [1, 1, 0, 0, 0, 0, 1] := by decide +kernel

end Verif
