# Formal model of chronos-tachyon/morehttp in Lean 4

The model, the specifications and the theorems are in `lean/Verif`; `lake build` in `lean/` builds all of it. The properties are in
`properties.jsonl`, the theorems claimed for each of them in `MANIFEST.json`, the record of the mutation tests in `seeded/LOG.jsonl`.

## Layout

* `lean/Verif/Basic.lean` — Go's basic notions (`error`, `int64`, slicing, panics) and the calls and results of the `Body` interface.
* `lean/Verif/Model/*` — the model, one Lean file per Go file (or group), function by function; every definition cites the Go lines.
* `lean/Verif/Spec/*` — small specifications that do not mention the model (independent cursors, the io contracts, linearizability, …).
* `lean/Verif/Proofs/*` — helper lemmas and invariants.
* `lean/Verif/Props/*` — the property theorems, named `Cnn_…`, each with an `example` meeting its hypotheses in a non-trivial way.

## Modelling decisions

* `error` is `Option Err`; `nil` is `none`. `int64` values are `Int`; wrap-around is modelled explicitly (`i64`) where a caller-supplied
  value enters an addition (`Seek`). Elsewhere sums are bounded by lengths of real byte sequences, or the theorem assumes sizes below 2^62
  (`Op.Small`) or 2^63. `Model/Machine.lean` has the Bodies with wrapping arithmetic throughout, for an `int` of 32 and of 64 bits, and C71
  says that this makes no difference within stated bounds.
* Panics (failed `assert`, slice bounds, nil dereference, panics of external objects) are outcomes carrying the state left behind, so that
  “never panics” and “panics change nothing” are theorems.
* A call that need not return (a Reader that returns `0, nil` for ever) is the outcome `hang`; loops take fuel, theorems hold for every
  fuel; termination is proved under an explicit bound on the number of empty reads (`Eager`).
* External objects (Reader, ReaderAt, Seeker, Closer, ResponseWriter, Handler, PageGenerator, Body met by `Serve`) are arbitrary state
  machines over arbitrary state types. Theorems quantify over all of them or assume an explicit contract (`Spec/`). Methods that call back
  (`WriteTo`, `ReadFrom`) are interaction trees.
* A family of Bodies sharing one common block is one system state; calls name a Body by its handle; histories are lists of calls. A Body
  that has been closed keeps its handle.
* Header maps and value slices live in a heap with references, offsets, lengths and capacities, so that aliasing (also through `append`)
  is expressible.
* Concurrency: each method is a program whose steps are single accesses to a field or single lock operations; goroutines interleave these
  steps arbitrarily (`Model/Concurrent.lean`).

## Trusted base

* Lean 4.33.0’s kernel, and the axioms `propext`, `Quot.sound`, `Classical.choice` (which theorem uses which is listed at the end).
* That the definitions in `Model/` say what the Go code does. This is by reading; nothing was extracted or executed. The Go files are covered as
  follows.

| Go code | Lean | what is left out or simplified |
|---|---|---|
| `body/body.go` `AlreadyClosed`, `Empty`, `FromBytes`, `FromString` | `Model/Bytes.lean` | the slice given to `FromBytes` is a value (its documentation forbids modifying it); as a slice that is shared in `Model/SliceBytes.lean` |
| `body/body.go` `FromJSON`, `FromPrettyJSON`, `FromProto`, `FromProtoText` | `Model/Construct.lean` | the encoders are parameters; the buffer pool is left out (with pool, slices and overlapping calls in `Model/SliceJson.lean`); with the encoder of `encoding/json` in `Model/Json.lean` |
| `encoding/json` (`Encoder.Encode`, `encodeState`, `Indent`, `compact`, `scanner`) | `Model/Json.lean` | from knowledge of Go 1.17; a value is a tree (`JVal`): the choice of an encoder by type, tags and pointers are left out; floating-point numbers: `Model/JsonFloat.lean` (without the search for the shortest digits); a value that encodes itself is given by its text |
| `body/body.go` `FromReader`, `FromReaderAndLength` | `Model/Construct.lean` | a nil pointer inside a non-nil interface |
| `body/empty.go`, `body/bytes.go`, `body/closed.go` | `Model/Bytes.lean` | mutexes (see `Model/ConcMem.lean`) |
| `body/buffered.go` | `Model/Buffered.lean` | mutexes (see `Model/ConcBuf.lean`); slices are values (with capacities and the copy into a bigger array, `:171-183`, in `Model/SliceBuf.lean`); the map `bodies` is a list, iterated in list order (C46 proves that the order does not matter) |
| `body/readerat.go`, `body/seeker.go` | `Model/Positional.lean` | mutexes (see `Model/ConcPos.lean`); slices are values (see `Model/SlicePos.lean`) |
| `body/errors.go` | `Basic.lean` (`Err`), `Model/Errors.lean` (texts) | texts of `io.EOF` and of errors of Readers are parameters |
| `response/response.go` | `Model/Serve.lean`, `Model/Builder.lean` (accessors, `Copy`, `String`), `Model/ServedHeaders.lean` (headers in memory) | the client request; `PushOptions` |
| `response/writer.go` | `Model/Writer.lean` | whether `assert.Raisef` panics is a parameter; what `Hijack` and `CloseNotify` return |
| `response/builder.go`, `response/util.go`, `response/pagegen.go` | `Model/Heap.lean`, `Model/Builder.lean`, `Model/Mime.lean` | `http.StatusText` is a parameter, and in `Model/Builder.lean` what `mime` does to a media type, too (`Mime.normal` is what it does, C75); concurrent use of one Builder (not supported by the code) |
| `handler/adaptor.go`, `handler/handler.go`, `handler/onpanic.go` | `Model/Adaptor.lean`, `Model/PanicText.lean` | time and `float64`: in `Model/Timed.lean`; registration of the metrics: in `Model/Register.lean` |
| Go library: `io.Copy`, `io.Discard`, `http.Header`, `textproto.CanonicalMIMEHeaderKey`, `strings.TrimSpace`, `html.EscapeString`, `base64`, `strconv`, `%03d` | `Model/IoCopy.lean`, `Model/Heap.lean`, `Model/Text.lean`, `Model/Strconv.lean` | modelled from knowledge of Go 1.17; for `TrimSpace`, `base64`, `html`, `strconv` what they compute rather than their code |
| `sync.Mutex`, Go’s memory model | `Model/Concurrent.lean` | a lock is held by one goroutine at a time, and happens-before and visible writes are what the memory model says (`Spec/HappensBefore.lean`). That accesses behave as if they were sequentially consistent is proved from that (C78), except for the one racing read in `seekerBody.BytesRemaining` (C44, C78): there the model of C44 assumes that the last value is found and that an `int64` is not torn (true on 64-bit machines). A new Body is given to other goroutines through something that synchronises (a channel, a `go` statement) |
| `internal/mockreader` | `Model/Mock.lean`, `Model/MockText.lean`, `Model/Quote.lean` (strconv.Quote), `Model/MockConc.lean` (the mutex) | contents of buffers passed to `Read`; `fmt.Sprintf("%T[%+v]")` of errors and FileInfos (a parameter) |
| Prometheus counters and histograms, goroutines of a server | `Model/Registry.lean` | `Inc`, `Add`, `Observe` are indivisible; integers and no times (with `float64` and times: `Model/Timed.lean`, `Model/Float.lean`) |
| `net/http` server (`response.WriteHeader`, `Write`, `ReadFrom`) | `Model/NetHttp.lean` | from knowledge of Go 1.17; only what limits the body (status, Content-Length); buffering, 1xx, `Hijack` |
| `net/http` server for HTTP/2 (`responseWriter.Push`), `url.Parse` | `Model/Push.lean` | from knowledge of Go 1.17; `parseAuthority` and the answers of the connection are parameters |
| `net/http` server (`conn.serve`, `shouldReuseConnection`) | `Model/Conn.lean` | from knowledge of Go 1.17; what else may close the connection is a parameter |
| `net/http` server (`chunkWriter.writeHeader`, `Write`, `close`, `Header.writeSubset`) | `Model/Wire.lean` | from knowledge of Go 1.17; requests of HTTP/1.1; what depends on buffering, time and the request is a parameter (`Choices`) |
| `response/response.go` `Serve`, in steps | `Model/ServeSteps.lean` | cut at the calls of the Body |
| Bodies over Bodies, several Bodies over one Reader | `Model/Layer.lean`, `Model/Shared.lean` | |
| tests of `body` | `Props/Replay.lean` | replayed on the models (as checks of the models, not as proofs) |

Further limits of the model: a Reader’s or Writer’s method is one indivisible step of the goroutine that calls it, and, but for C83 and C84, does not
call back into the family of the Body that called it (C83 and C84 prove what becomes of Readers and Writers that do: a deadlock, as Go's mutexes are not reentrant); external `Seek`, `Stat` and `Close` return or panic (they do not run for ever); `Write` of a destination of `WriteTo` returns or panics depending on the data alone for the in-memory bodies (`WriteFn`).
`assert.NotNil(&x)` is taken to panic exactly if the interface `x` is nil (a nil pointer in a non-nil interface passes, such as `AlreadyClosed()`), `assert.Assertf` exactly if
the condition is false; `BytesRemaining` of a Body that `Build` asks returns.


## Status of each property

“Proved” means: for all inputs, states, histories, readers, writers and schedules in the stated scope. “Partial” means that the property as
stated in `properties.jsonl` is false of the code or only part of it is proved; the theorem proving a part has the suffix `_partial`, and where the
code violates the property the negation is proved with a concrete witness.

### C01 — Bytes-backed bodies behave as independent cursors (proved)

Model: `BytesBody`, `EmptyBody` step functions over families. Spec: `Spec.run` on lists of independent `Cursor`s. Proof: simulation by induction over the history, for all slices below 2^63 bytes and all `int64` arguments.

Theorems: `C01_bytes_refine_cursors`, `C01_no_panic`.

### C02 — Reading a bytes-backed Body to EOF yields exactly its content (proved)

Corollary of C01: the concatenation of what `Read`s deliver, for every list of buffer sizes.

Theorems: `C02_read_exact`, `C02_read_concat`.

### C03 — Seek is a clamped absolute seek and fails without side effects (proved)

`Spec.SeekClamped`/`Spec.seekAnswer` state the documented arithmetic independently of the code; proved for in-memory bodies after every history, over well-behaved ReaderAts and full Seekers, including the bytes read afterwards; for arbitrary readers the arithmetic alone (`SeekArith`). Wrap-around is part of the model.

Theorems: `C03_seek_mem`, `C03_seek_readerAt`, `C03_seek_seeker`, `C03_failed_seek_changes_nothing`, `C03_seek_any_readerAt`, `C03_seek_any_seeker`.

### C04 — ReadAt is a pure positional read (proved)

`Spec.ReadAtPure`: the answer and that the state does not change at all. The exception for the empty body is proved as well.

Theorems: `C04_readAt_bytes`, `C04_empty_negative_offset`, `C04_readAt_readerAt`.

### C05 — A closed Body is inert forever (proved)

`Spec.Inert` for every kind, every reader, after every history in which the Body was closed.

Theorems: `C05_closed_inert_mem`, `C05_alreadyClosed`, `C05_closed_inert_stream`, `C05_closed_inert_readerAt`, `C05_closed_inert_seeker`.

### C06 — BytesRemaining is exact for bytes-backed bodies (partial)

*Exactly when.* `C06_iff` (Props/Exactly.lean): for a nonempty Body and any history, `BytesRemaining` is exact if and only if `stoppedPartWay` (a function of the calls and their answers alone, Spec/Exactly.lean) says that the last `WriteTo` of the Body was not stopped part-way, or a `Seek` has succeeded since. `C06_empty`: for the empty Body it is exact after any calls, without restriction.

Theorems: `C06_remaining_exact_partial`, `C06_false_after_partial_write`, `C06_iff`, `C06_empty`.

### C07 — WriteTo drains a bytes-backed Body exactly once (proved)

One theorem about `WriteTo` after every history with an arbitrary writer, including later calls.

Theorems: `C07_writeTo_drains`.

### C08 — Copying an empty Body with io.Copy succeeds (partial)

`io.Copy` is modelled; the failure is proved for every writer. The partial theorem: nothing is written, count 0.

Theorems: `C08_copy_empty_partial`, `C08_copy_empty_fails`, `C08_serve_empty_fails`, `C08_empty_writeTo_reports_eof`.

### C09 — Stream-backed bodies: every copy sees the same stream (proved)

The shared-buffer system refines independent cursors over what the Reader hands out (`C09_stream_refines_cursors`, for every Reader, also misbehaving ones, with the crash as a choice of the environment); for streams (`IsStream`) the content is the stream itself cut at the length. Calls return under `Eager`. `Rdr.CloseOk`: the Reader’s `Close` returns (for other Readers the theorems hold until it panics, `C10_calm_until_close_panics`). The recording of the Reader’s log is transparent.

Theorems: `C09_stream_refines_cursors`, `C09_stream_content`, `C09_calls_return`, `C09_log_is_transparent`.

### C10 — Stream-backed bodies never trip their internal assertions (proved)

From the invariant behind C09: after every history in which the Reader’s `Close` did not panic, every panic is the Reader’s own or reports its impossible count, in that very call.

Theorems: `C10_panics_blame_reader`, `C10_no_panic`, `C10_calm_until_close_panics`.

### C11 — Stream-backed bodies retain exactly the window still needed (proved)

The invariant states the exact window; `C11_window` expresses it in terms of the cursors and the log of the Reader.

Theorems: `C11_window`, `C11_nothing_after_close`.

### C12 — The Reader behind a stream-backed Body is consulted only when needed and never after it ended (proved)

On a recording Reader: which calls of its `Read` occur, with which sizes, and none after the end.

Theorems: `C12_requests`, `C12_quiet_after_end`.

### C13 — Stream-backed Read fills the buffer unless the stream ends (proved)

From C09 plus the log.

Theorems: `C13_full_or_error`.

### C14 — Stream-backed BytesRemaining is exact once known and -1 before (proved)

From C09; `C14_exact_with_correct_length` needs no knowledge of the Reader’s state.

Theorems: `C14_remaining`, `C14_exact_once_known`, `C14_exact_with_correct_length`.

### C15 — The backing Reader is closed exactly once, by the last Close (proved)

On a recording Reader for the three reader-backed kinds: number of `Close` calls after every history, the answers, and that only `Close` calls close.

Theorems: `C15_closed_exactly_once_stream`, `C15_close_answers_stream`, `C15_only_close_closes_stream`, `C15_closed_exactly_once_readerAt`, `C15_close_answers_readerAt`, `C15_closed_exactly_once_seeker`, `C15_close_answers_seeker`, `C15_only_close_closes_positional`.

### C16 — ReaderAt-backed bodies behave as independent cursors (proved)

*Weakest condition.* `C16_iff` (`Spec/Weakest.lean`, `Props/Weakest.lean`): for every Reader whose Close does not panic, the Bodies behave as cursors over `F` if and only if the Reader, asked for one range inside `F` after the other, delivers it. Nothing is needed of it outside `F`, so that also Readers that keep no contract will do (`touchyRdr`).

Theorems: `C16_readerAt_refines_cursors`, `C16_calls_return`, `C16_iff`.

### C17 — An I/O error on one ReaderAt-backed copy does not affect other copies (partial)

Negation by a witness; for every reader contents delivered are right for their position.  `C17_cut`: exactly what the other copy delivers after a failing Read; `C17_iff`: it is everything if and only if the failing Read delivered everything.

Theorems: `C17_false_readerAt`, `C17_right_bytes_readerAt_partial`, `C17_cut`, `C17_iff`.

### C18 — Seeker-backed bodies behave as independent cursors (partial)

*Weakest condition.* `C18_iff`: the same with `Seek` and `Read`; so a Seeker that once returns less than asked for, inside the content, makes C18 false.

Theorems: `C18_seeker_refines_cursors_partial`, `C18_calls_return`, `C18_false`, `C18_right_bytes_seeker_partial`, `C18_iff`.

### C19 — Seeker-backed ReadAt honours the io.ReaderAt contract (partial)

*Weakest condition.* `C19_iff`: all `ReadAt`s, after all histories, honour the contract if and only if the same condition holds.

Theorems: `C19_readAt_seeker_partial`, `C19_false`, `C19_iff`.

### C20 — BytesRemaining is never negative except for the value -1 meaning unknown (partial)

*Weakest condition.* `C20_iff`, for all Readers: never negative if and only if the Seeker never returns an error before the end and never less than all the rest when asked for it.

Theorems: `C20_remaining_stream`, `C20_remaining_readerAt`, `C20_exact_readerAt`, `C20_remaining_seeker_partial`, `C20_false_seeker`, `C06_remaining_exact_partial`, `C20_iff`.

### C21 — A failed or finished Read is sticky until Seek (proved)

Stickiness after every history for every reader.

Theorems: `C21_sticky_readerAt`, `C21_sticky_seeker`.

### C22 — FromReader picks an implementation that keeps its documented promises (proved)

Case analysis of the constructor with an arbitrary reader; `FromReader` has all outcomes of `FromReaderAndLength`; nil Readers are refused.

Theorems: `C22_positional`, `C22_streaming`, `C22_body_unchanged`, `C22_fromReader`, `C22_nil`.

### C23 — FromReader determines the length correctly and reports failures (proved)

The calls made on the reader (recorded), the outcome, the advertised length and the content from the first byte on.

Theorems: `C23_declared`, `C23_stat`, `C23_seek`, `C23_unknown`, `C23_content_readerAt`, `C23_content_seeker_partial`, `C23_content_stream`.

### C24 — FromJSON serves the JSON encoding (partial)

For every encoder output the Body is empty; the partial theorem covers encoder failure.

Theorems: `C24_false`, `C24_encoder_error_partial`.

### C25 — FromPrettyJSON serves the indented encoding with CRLF line ends (proved)

The CRLF expansion with its left inverse, every LF preceded by CR, length; encoder failure; FromProto/FromProtoText serve the encoder’s output, the latter with the default options if none are given; nil messages are refused.

Theorems: `C25_pretty`, `C25_lossless`, `C25_every_lf_has_cr`, `C25_length`, `C25_encoder_error`, `C25_proto`, `C25_protoText`.

### C26 — A built Response has a status between 200 and 999 (proved)

`Spec/Builder.lean` describes a Builder as a value; invariant over arbitrary histories of arbitrarily many Builders and Responses over one heap.

Theorems: `C26_last_set`, `C26_built`, `C26_range`, `C26_rejected`.

### C27 — Build fills in Content-Type and Content-Length only when absent (proved)

Exact headers of the Response as a function of the Builder’s headers and BytesRemaining, after every history.

Theorems: `C27_headers`.

### C28 — Build resets the Builder (proved)

State after Build, and Build without Body.

Theorems: `C28_reset`, `C28_no_body`.

### C29 — Header maps given to or copied from a Builder are not shared (proved)

All Builders and Responses behave as values (no sharing) for every legal history, including mutation of foreign maps and slices.

Theorems: `C29_as_values`, `C29_unaffected`, `C29_withHeaders`, `C29_copy`, `C29_others_unchanged`.

### C30 — A built Response is isolated from the Builder's later use (proved)

As C29; the deviations are concrete witnesses.

Theorems: `C30_isolated`, `C30_handed_over`, `C30_copy_shares`, `C30_kept_map_changes_response`, `C30_shared_generator`.

### C31 — WithHeader / WithoutHeader / WithContentX edit one canonical header (proved)

Each edit characterised by its effect on the lookup function, with canonicalisation modelled from Go’s code and specified independently (`Spec/Text.lean`).

Theorems: `C31_set`, `C31_append`, `C31_remove`, `C31_nothing_else`, `C31_empty_name`, `C31_names`, `C31_content_type`, `C31_content_x`.

### C32 — ETag and Digest values are unambiguous (proved)

Injectivity; base64 against an independent decoder.

Theorems: `C32_etag`, `C32_etag_unambiguous`, `C32_digest`, `C32_digest_unambiguous`, `C32_rejected`.

### C33 — Redirect pages cannot be broken by the location and have a correct Content-Length (proved)

Default PageGenerator: text, escaping (structural safety and left inverse), headers, Content-Length = length of the content.

Theorems: `C33_redirect`, `C33_escaped`, `C33_blank`, `C33_error`.

### C34 — Serve sends status, headers and the whole Body, in that order (proved)

Serve over an arbitrary Body and ResponseWriter with logs of both; which events in which order; nil iff all delivered and accepted; specialised to the Bodies of this repository.

Theorems: `C34_order`, `C34_bytes`, `C34_nil_iff`, `C34_content`, `C34_content_bytes`, `C34_content_readerAt`, `C34_content_seeker`, `C34_content_stream`, `C34_short_write_unnoticed`, `serve_is_transparent`, `C34_copy_count`.

### C35 — Serve closes the Body (partial)

*Exactly when.* `C35_iff`: a `Serve` that returned has closed the Body once if and only if no push failed.

Theorems: `C35_closed_once_partial`, `C35_at_most_once`, `C35_not_closed_after_push_failure`, `C35_false`, `C35_iff`.

### C36 — Push headers are pushed and never sent (proved)

Push calls on the log of the ResponseWriter.

Theorems: `C36_all_pushed`, `C36_stops_at_failure`, `C36_no_pusher`, `C36_push_not_sent`.

### C37 — A Writer forwards at most one status and always before any body byte (proved)

Invariant over arbitrary histories of calls on a Writer around an arbitrary ResponseWriter, on its log.

Theorems: `C37_status_once_and_first`, `C37_before`, `C37_repeated`, `C37_first`, `C37_out_of_range`.

### C38 — BytesWritten counts exactly the bytes the wrapped writer accepted (proved)

As C37, sums of counts.

Theorems: `C38_bytes_written`, `C38_no_body`, `C38_write_succeeds`, `C38_write_forwards`.

### C39 — SawError reports every failed write (partial)

*Exactly when.* `C39_iff`: `SawError` says whether something failed unless a failure of `ReadFrom` stands alone.

Theorems: `C39_saw_error_partial`, `C39_no_readFrom`, `C39_false`, `C39_iff`.

### C40 — NewWriter wraps once and keeps the wrapped writer's capabilities (proved)

Case analysis of `NewWriter`; no call of a method that the Writer has hits a missing interface.

Theorems: `C40_same`, `C40_wrapped`, `C40_capabilities`, `C40_not_invented`, `C40_no_missing_interface`, `C40_readFrom_present`.

### C41 — Every request handled by Adaptor gets a status and is counted once (proved)

Arbitrary handler, Body, client writer and OnPanic; metrics as a log; also with an Adaptor around a Writer that already exists (nested).

Theorems: `C41_returns`, `C41_one_status`, `C41_counted_once`, `C41_nested`.

### C42 — Panics are counted and reported exactly once (proved)

As C41.

Theorems: `C42_handler_panics`, `C42_response`, `C42_panic_nil`, `C42_empty_body_counts_as_panic`.

### C43 — Requests are counted under the status the client received (partial)

*Exactly when.* `C43_iff`: the labels are the status received if and only if the handler returned a Response with a code from 100 to 999 and no push failed.

Theorems: `C43_label_partial`, `C43_label_or_zero`, `C43_panic_counted_under_zero`, `C43_iff`.

### C44 — Concurrent use of bodies is linearizable (partial)

Stepwise programs for all methods; every execution of any number of goroutines is simulated by atomic calls (`Linearizable`), hence has a linearization in terms of sequential runs (`Sequential`, respecting real time), hence one in terms of independent cursors (`CursorHistory`). Race freedom and the locking discipline follow from a permission discipline (`Proofs/Conc.lean`). The race of `seekerBody.BytesRemaining` is exhibited by a schedule; it is the only one.

Theorems: `C44_linearizable_sequential`, `C44_real_time`, `C44_bytes`, `C44_empty`, `C44_readerAt`, `C44_seeker`, `C44_buffered`, `C44_readerAt_cursors`, `C44_seeker_cursors`, `C44_bytes_cursors`, `C44_empty_cursors`, `C44_buffered_cursors`, `C44_readerAt_no_race`, `C44_buffered_no_race`, `C44_bytes_no_race`, `C44_empty_no_race`, `C44_seeker_no_race_partial`, `C44_seeker_races_for_length`, `C44_seeker_race`.

### C45 — Concurrent use of bodies never deadlocks (proved)

`LockOrder` in every reachable state; while somebody is in a call somebody can take a step; `AllReturn`: no infinite run without new calls, and when nothing can move nobody is in a call. Stream-backed bodies: under a bound on empty reads.

Theorems: `C45_readerAt`, `C45_seeker`, `C45_bytes`, `C45_empty`, `C45_buffered_order`, `C45_buffered`.

### C46 — Results do not depend on Go's map iteration order (proved)

Permutation of the list standing for the map changes nothing observable.

Theorems: `C46_iteration_order_stream`, `C46_iteration_order_serve`, `C46_copyHeaders`.

### C47 — ReaderAt- and Seeker-backed bodies never panic on their own account (proved)

As C10, for every reader and every declared length, after every history.

Theorems: `C47_panics_blame_readerAt`, `C47_panics_blame_seeker`.

### C48 — A built Response never declares a wrong Content-Length of its own making (partial)

*Exactly when.* `C48_iff`: the Content-Length of a built Response is right if and only if the Builder had none or a right one.

Theorems: `C48_content_length_partial`, `C48_stale_content_length`, `C48_iff`.

### C49 — A Body is closed even if closing its Reader panics (partial)

ReaderAt- and Seeker-backed bodies: C05 holds for readers whose `Close` panics. Stream-backed bodies: the state left behind and the answers of later calls, for every reader and history.

Theorems: `C49_closed_positional`, `C49_zombie`, `C49_false`.

### C50 — Serving through a Writer is transparent, and mute when it must be (proved)

`Props/Through.lean`: a simulation of `serve` over the Writer by `serve` over the wrapped ResponseWriter, for arbitrary interaction trees; the mute case by a separate induction over the copy loop, `io.Discard` and `WriteTo`.

Theorems: `C50_transparent`, `C50_content`, `C50_suppressed`, `C50_negative_count`.

### C51 — Descriptions of Responses and errors are unambiguous (proved)

`Props/Describe.lean`: a parser for descriptions (`Spec.readDescription`) is a left inverse of the model of `Response.String`; error texts (`Model/Errors.lean`) are injective by comparing prefixes and by injectivity of `strconv.Itoa`. `Props/PanicText.lean`: the text of a PanicError can be read back for values of plain types; `fmt` writes slices of strings ambiguously.

Theorems: `C51_response`, `C51_three_digits`, `C51_errors`, `C51_goString`, `C51_read_goString`, `C51_has_goString`, `C51_read_error`, `C51_wrapped`, `C51_panic_parts`, `C51_panic`.

### C52 — A MockReader follows its script and accepts nothing else (proved)

`Props/Mock.lean`: scripts are compared with `Spec.plays` (line i against call i) by induction over the calls. `Props/Replay.lean` replays the tests of the repository on the models, with MockReaders.

Theorems: `C52_counts`, `C52_script`, `C52_accepts`, `C52_report`, `C52_nil`, `C52_isDir`.

### C53 — A MockReader can stand in for a Reader (proved)

`Proofs/Morph.lean`: if one Reader does the same as another through a map of states (as long as a condition on the states holds afterwards), so do `FromReaderAndLength` and all three kinds of Bodies. `Props/StandIn.lean`: the MockReader scripted with a final log follows the recorded Reader while its log is a prefix of that one.

Theorems: `C53_stand_in`, `C53_record`, `C53_scriptable`.

### C54 — Bodies touch no memory but what they deliver (proved)

`Model/Slices.lean` has arrays and slices as in Go (array, offset, length, capacity); `Model/SliceBuf.lean`, `SlicePos.lean` and `SliceBytes.lean` repeat the models of the Bodies on that level, with Readers that may scribble on the slices lent to them. Each is related to the model with lists by a refinement (`Proofs/Slice*.lean`), so the other properties hold on this level too. The frame conditions are in `Spec/Memory.lean`.

Theorems: `C54_buffered`, `C54_keeps_nothing`, `C54_readerAt`, `C54_seeker`, `C54_bytes`, `C54_shares`, `C54_lends`, `C54_as_lists`.

### C55 — A Response that a handler returns reaches the client completely (proved)

`Spec/Success.lean` says what a Body that delivers (`Lively`) and a client that takes everything (`Obliging`) are, and what a complete conversation is; it does not mention the Writer, `Serve` or the Adaptor. `Proofs/Success.lean`: `io.Copy` between the two copies everything, also through the Writer; `Proofs/Lively.lean`: the Bodies of this repository are lively over Readers that keep their contracts. `Model/Store.lean` is the store of Bodies made by `FromBytes` that Builders need; with it `Props/EndToEnd.lean` goes from `ErrorPage` and `Build` to the client. `FromBytes` of an empty slice is not covered by `C55_bytes` (its `WriteTo` reports `io.EOF`, so the premise that the Body delivers fails; what happens then is `C08_serve_empty_fails` and `C42_empty_body_counts_as_panic`).

Theorems: `C55_serve`, `C55_request`, `C55_bytes`, `C55_readerAt`, `C55_seeker`, `C55_stream`, `C55_built`, `C55_error_page`, `C55_redirect_page`.

### C56 — Copies are served independently of each other (proved)

`Proofs/Untouched.lean`: whatever the client does, a fact about the Bodies that survives `Read`, `Close` and `WriteTo` of one of them survives `Serve` of it; that another Body of the family still delivers its bytes is such a fact, by the refinements to cursors. With C55 the other one can then be served.  Excluded: calls that never return, and buffers of 2^62 bytes and more.  Copies of closed Bodies: `closedFam` stands for `closedSingleton` and is proved to answer every call as that does (`closedFam_step`).

Theorems: `C56_bytes`, `C56_readerAt`, `C56_seeker`, `C56_stream`, `C56_response`, `C56_builder`, `C56_response_closed`, `C56_builder_closed`.

### C57 — Bodies made from the same positional Reader do not disturb each other (proved)

`Model/Shared.lean` has one Reader and a list of families with a pointer to it (the state of the Reader is put into a family for the duration of a call); `Spec/Shared.lean` has families of cursors that know nothing of each other. The relation of a family to its cursors does not mention the state of the Reader, so another state in which the Reader is in order may be put in its place. The theorem speaks about histories as long as the Reader is in order; `C57_shared_reader_stays` is the case of Readers that stay in order (no `io.Closer`). A family whose last Body is closed closes the Reader also for the others (example in `Props/Shared.lean`), and Bodies over a plain stream share it, as one expects (example).

Theorems: `C57_shared_reader`, `C57_shared_reader_stays`, `C57_make`.

### C58 — A Body can be the Reader behind another Body (proved)

`Model/Layer.lean` turns a Body of a family into a Reader (the states are those that satisfy the relation to cursors, so that nothing has to be said about impossible states). `Props/Layer.lean`: if a family behaves as cursors, its Bodies are Readers that keep the contracts used elsewhere (`IsFile`, `IsStream`, `Eager`). Worth knowing: `FromReader(b)` returns the Body `b` itself, with its position (`body.go:281`), but `FromReaderAndLength(b, -1)` makes a Body that starts at the first byte, and rewinds `b`; over plain Readers both start at the current position. Calls with buffers of 2^62 bytes or more are not modelled in this layer.

Theorems: `C58_seekable`, `C58_stream`, `C58_close`, `C58_bytes`, `C58_readerAt`, `C58_seeker`, `C58_buffered`, `C58_over_seekable`, `C58_over_stream`.

### C59 — The texts of scripted calls are unambiguous (proved)

`Model/MockText.lean` has the texts, `Model/Quote.lean` has `strconv.Quote` of Go 1.17 (decoding of UTF-8 included; which runes are printable is a parameter). `Spec/Literal.lean` reads Go string literals, after the language specification, and `Spec/MockText.lean` reads the texts of calls; the theorems say that reading gives the call back. `Proofs/Quote.lean`: `literal_quote`. The texts of errors and FileInfos may be ambiguous; they come last. A line and a call are compared by the call alone, so the two texts in a report differ already in it.

Theorems: `C59_line`, `C59_line_go`, `C59_call`, `C59_call_go`, `C59_nothing`, `C59_report`, `C59_differ`, `C59_ops`.

### C60 — Serve and Writers add no panics of their own, and always return (proved)

`Spec/Calm.lean` says with which values an object may panic and whether its calls may fail to return (`Within P H`), for Bodies, ResponseWriters, and runs of `WriteTo` and `ReadFrom`; `Props/Calm.lean`, `Props/CalmBody.lean` and `Props/CalmAdaptor.lean` carry that through `io.Copy`, `Serve`, the Writers and the Adaptor. (C41 says that the Adaptor returns unless something does not end; here it is said what.) The number of iterations of `io.Copy` is bounded by the number of bytes left in the Body. `NewWriter` is followed from `Serve`; handlers that call the Writer themselves may of course make it panic (C38). A status out of range makes `Serve` panic by itself (an example shows it), and so does a Body that claims to have read more than the buffer holds (`C60_overrun`). Buffers of 2^62 bytes, asked for by a client that implements `io.ReaderFrom`, are excluded.

Theorems: `C60_serve`, `C60_writer`, `C60_body`, `C60_memory`, `C60_end`, `C60_end_memory`, `C60_adaptor`, `C60_request`, `C60_blocked`, `C60_overrun`.

### C61 — Bodies made from JSON own their memory; the buffer pool loses nothing (proved)

`Model/SliceJson.lean` has `fromJSONImpl` as a sequence of small steps on memory with arrays and slices, a pool from which any buffer may come, and events for everybody else. `Spec/Pool.lean` says which memory belongs to whom, and what the others may do: they write only to memory that is neither held by a call nor content of a Body, and put only what is theirs. `Proofs/SliceJson.lean` has the invariant (`JSys.Inv`): slices of different places share no array, and each call has in its memory what it should have by then. `JCall.todo` in `Spec/Pool.lean` is the number of steps that are left. With C54 this gives the behaviour of the Bodies (`C61_body`). A `bytes.Buffer` is its slice, since nothing reads from it; a buffer is empty when the pool hands it out (that is done by `bufferpool`, which is not part of the repository). That `FromJSON` gives an empty Body is the matter of C24.

Theorems: `C61_calls`, `C61_content`, `C61_panics`, `C61_own`, `C61_exclusive`, `C61_put`, `C61_pool`, `C61_ends`, `C61_as_lists`, `C61_body`.

### C62 — What Bodies over failing sources do: their common content only becomes shorter (proved)

`Spec/Shrink.lean` is a family of cursors with one number, where the content ends by now; each call gets an `Reply`, what the source does if it is asked. `C62_readerAt` and `C62_seeker`: for each history there are answers of which everything holds that holds of all answers of the source (`A`), such that the results are those of the specification. The other theorems are consequences, in terms of results only. This is what the code does where C17, C18 and C20 say what it should have done. For Bodies over an `io.Seeker` that stand beyond the new end `BytesRemaining` is negative (C20).

Theorems: `C62_readerAt`, `C62_seeker`, `C62_no_further_readerAt`, `C62_no_further_seeker`, `C62_smooth_readerAt`, `C62_smooth_seeker`, `C62_filled_readerAt`, `C62_filled_seeker`.

### C63 — The metrics of overlapping requests add up (proved)

`Model/Registry.lean` has the metrics as Prometheus keeps them (counter vectors, histograms with buckets) and a server with any number of goroutines, each of which has a list of things to do to the metrics, taken one by one in any order (`Move.tick`). The lists are those of `request` (C41). `Spec/Scrape.lean` says what metrics display in terms of everything done so far (`Displays`). `Inc`, `Add` and `Observe` are taken to be indivisible, as documented by the library; values are integers instead of `float64`; times are not modelled. That panics are counted under the label "0" is the deviation of C43; that received bytes are always 0 is a FIXME in the code.

Theorems: `C63_adds_up`, `C63_quiet`, `C63_by_status`, `C63_by_status_500`, `C63_recv`, `C63_scrape`, `C63_labels`, `C63_never_less`.

### C64 — Over net/http a Response arrives intact exactly if it fits its status and Content-Length (proved)

`Model/NetHttp.lean` has the ResponseWriter of the `net/http` server as far as it restricts what may be written. `Spec/Delivery.lean` says when a response has arrived intact (`Intact`, `Framed`) and when a body fits (`HasRoom`). `C64_request` gives the response on the wire, the metrics and the outcome for every Response whose Body delivers its bytes (`Lively`) and can be given up (`Quits`); `C64_iff`: intact exactly if it fits. `C64_bytes`, `C64_readerAt`, `C64_seeker`, `C64_stream`: for the Bodies of this repository; `C64_built`: for Responses made by a Builder, whose Content-Length header `net/http` understands (`parseLength_decimal`). `C64_304`, `C64_too_short` and `C64_too_long` say what happens if it does not fit.

Theorems: `C64_request`, `C64_iff`, `C64_304`, `C64_too_short`, `C64_too_long`, `C64_bytes`, `C64_readerAt`, `C64_seeker`, `C64_stream`, `C64_built`, `C64_declared`.

### C65 — Copies of one Response can be served at the same time (proved)

`Model/ServeSteps.lean` cuts `Serve` at its calls of the Body (`serveStep`); `serve_leads` proves that a goroutine that is alone gets in this way to the same end as `serve`. `Crowd.run` interleaves any number of such goroutines with other calls. `Spec/Sharing.lean` says what is asked of a family of Bodies (`Shareable`) and of a goroutine (`Completes`). `C65_serve` and `C65_through` (with a Writer in between) are for any such family; `C65_copies` and `AllServed` for a Body and its copies; `C65_bytes`, `C65_readerAt`, `C65_seeker`, `C65_stream` for the Bodies of this repository (`Proofs/Shareable.lean`). The measure is the number of bytes still to come plus what is left of the calls around them. `C65_alone`: the others have no effect at all on a goroutine that serves an in-memory Body. A call of a method of a Body is one step; that this is right is C44.

Theorems: `C65_serve`, `C65_through`, `C65_copies`, `C65_bytes`, `C65_readerAt`, `C65_seeker`, `C65_stream`, `C65_alone`, `serve_leads`.

### C66 — A client can tell when the source of a response failed (partial)

`Spec/Failing.lean` says what it means that a Body delivers some bytes and then fails (`Failing`), that a source does (`IsStream` with an error at its end, `BreaksAt`, `BreaksSeeking`), and what a client sees that has no reason to doubt (`SeemsWhole`: a message that can be read to its end, and `ServeHTTP` returned). `C66_request` gives the wire, the metrics and the outcome in all cases; `C66_whole_iff` when it seems whole. `C66_declared_partial` is the part of the property that is true (with the full statement in its comment); `C66_undeclared` and `C66_fails` (a concrete stream) are its negation otherwise, and `C66_same` says that the client gets the same as from a Body that does not fail. `C66_built`: a Response from a Builder is safe exactly if the Body knows its length.

Theorems: `C66_request`, `C66_reported`, `C66_whole_iff`, `C66_declared_partial`, `C66_undeclared`, `C66_stream`, `C66_readerAt`, `C66_seeker`, `C66_built`, `C66_fails`, `C66_same`.

### C67 — Goroutines using one MockReader take turns (proved)

`Model/MockConc.lean` has `next` in single steps (Lock, each access to `r.index` and `r.expect`, Unlock), interleaved arbitrarily. `Spec/Turns.lean` says what taking turns is. `C67_turns`: the i-th call to take effect gets what C52 says of the i-th call (`call_eq` connects the methods with `next`); `C67_script`, `C67_settled`, `C67_each_once` say it in terms of the script. The call takes effect when the index is written, or is found to be at the end; the invariant (`MockConc.Inv`) is that the mutex is held exactly in the critical section and the index is the number of calls that took effect, as far as the script goes. `C67_no_race`, `C67_no_deadlock`, `C67_bounded`: locking. `C67_ordered` says the absence of races as the Go memory model has it: `Spec/MockOrder.lean` defines happens-before from program order and the mutex (an Unlock happens before every later Lock), and any two accesses to the index are ordered by it; `C67_trails`: every execution is covered. `C67_only`: steps of different goroutines are ordered only through the mutex.

Theorems: `C67_turns`, `C67_script`, `C67_settled`, `C67_each_once`, `C67_no_race`, `C67_no_deadlock`, `C67_bounded`, `C67_ordered`, `C67_only`, `C67_trails`.

### C68 — What is done to the headers of one ResponseWriter does not show in another's (partial)

`Model/ServedHeaders.lean` has the loop of `Serve` on the heap of maps and slices, with `Header.Add`, `Set` and `Del`; `Spec/ServedHeaders.lean` says what each ResponseWriter would have if it were the only one. `C68_iff`: for any number (at least two) of ResponseWriters and Responses, each always has that, and the Responses keep theirs, exactly if no slice of a Response under a canonical name other than Push has spare capacity. The invariant (`HKept`): a slice with spare capacity is the only one on its array. `C68_built`, `C68_copied`: which Responses are like that. `C68_leaks`, `C68_in_place`: what happens with others.

Theorems: `C68_separate_partial`, `C68_iff`, `C68_built`, `C68_copied`, `C68_leaks`, `C68_in_place`.

### C69 — Each request is in the right bucket, and the totals are right up to rounding (proved)

`Model/Float.lean` has rounding to 53 significant bits, to nearest, ties to even, on rational numbers (`f64_nearest`, `roundEven_tie` say that it is that; `f64_near` bounds the error). `Model/Timed.lean` has the counters and histograms of version 1.11.0 of the Prometheus client (a counter has a `float64` and a `uint64`), and a server like that of C63 whose requests take some number of nanoseconds. `Spec/Timed.lean` says what the metrics should show. `C69_any_time`: at every time of every interleaving they show what has been done so far; `C69_quiet`: in terms of the requests, when all is done. The buckets are exact because the quotient of two rounded numbers is monotonic in the time, and each bound in milliseconds and one nanosecond more are apart after rounding (`seconds_le_iff`). `C69_inexact`, `C69_lost`: the limit 2^53 and the rounding errors are real. The exponent of a `float64` is not limited in the model; the numbers are 0 or between 10^-9 and 2^65. Counts of observations do not wrap around.

Theorems: `C69_any_time`, `C69_quiet`, `C69_never_less`, `C69_inexact`, `C69_lost`, `f64_nearest`, `roundEven_tie`, `f64_near`, `seconds_le_iff`, `bytes_le_iff`.

### C70 — The package can be initialised unless one of its metrics' names is taken (proved)

`Model/Register.lean` has `NewDesc`, `Register`, `NewHistogram` and `ExponentialBuckets` as far as they can fail. `C70_init` is an exact characterisation for all registries. The reason for the second half: a metric with the same name and no constant labels has the same identity, and one with constant labels is inconsistent with this one.

Theorems: `C70_init`, `C70_starts`, `C70_distinct`, `C70_buckets`, `C70_register`, `C70_increasing`, `C70_exponential`, `C70_labels`.

### C71 — No arithmetic overflows, also where int has 32 bits (proved)

`Model/Machine.lean` has the methods of bytes.go, readerat.go, seeker.go and buffered.go once more, with wrapping `int` (of 32 or 64 bits), `int64` and `int32`, the local variables `bufLen` and `endBuffer` of `Read` as variables of their own, and the panic of `make`. The theorems say that whole histories are equal to those of the model with unbounded integers, so all other properties carry over. `C71_readerAt` and `C71_seeker` are for all Readers, also misbehaving ones; `C71_stream` is for all whose `Close` does not panic. `C71_too_many` and `C71_no_room`: the bounds are needed (2^31 copies make the count negative, and the first Close ends them all; with 32 bits a buffer of 2^31-1 bytes makes `make` panic). `Model/MachineWriter.lean` has the Writers with a wrapping `int64` counter. `C71_writer`: the count is that of the model modulo 2^64, for all histories, and nothing else differs; `C71_adaptor`: the Adaptor does the same as in the model if fewer than 2^63 bytes were accepted; `C71_boaster`: a ResponseWriter that claims more makes the count negative, and the Adaptor panics in the metrics package.

Theorems: `C71_bytes`, `C71_readerAt`, `C71_seeker`, `C71_stream`, `C71_stream64`, `C71_too_many`, `C71_no_room`, `C71_writer`, `C71_writer_exact`, `C71_adaptor`, `C71_boaster`.

### C72 — The standard library can use Bodies (proved)

`Model/Consume.lean` has the functions of package io and `http.ServeContent` (ranges already parsed, error pages without text). `Spec/Consume.lean` says what a consumer may expect (`Source`, `Seeks`, `ReadsAt`), without mentioning Bodies; the first nine theorems are about everything that meets it, so they also apply to what `io.LimitReader`, `io.MultiReader` and `io.SectionReader` return. `C72_bytes`, `C72_readerAt`, `C72_seeker` and `C72_stream` say that the Bodies meet it in every reachable state (from the refinement proofs of C01 to C04). The relation `P` that they give is existential, but `Source` fixes what it means, and `P 0` holds of a new Body with the whole content. `C72_short_seeker`: for every content of 1 to 511 bytes, a documented way for an `io.ReadSeeker` to behave makes `io.ReadAll` lose all but the first byte (deviation 6 seen from outside).

Theorems: `C72_readAll`, `C72_readAtLeast`, `C72_readFull`, `C72_limit`, `C72_limit_beyond`, `C72_multi`, `C72_section`, `C72_copyN`, `C72_serveContent`, `C72_closed_served`, `C72_stuck_served`, `C72_closed_read`, `C72_bytes`, `C72_readerAt`, `C72_seeker`, `C72_stream`, `C72_usable`, `C72_short_seeker`.

### C73 — A goroutine that a handler ends is answered, counted and ended (proved)

`runtime.Goexit` is a value of `Panic` in the model (`Panic.goexit`): it ends the calls of the goroutine as a panic does, and the deferred functions run; the only code that tells the difference is the `recover` of the Adaptor, which sees nil and does not stop it (`exiting` in Model/Adaptor.lean). Readers, Bodies and ResponseWriters may do it, too, so all theorems about panics of these hold of it. `Threw` (Props/Ends.lean) says what came out of the handler or of `Serve`.

Theorems: `C73_exit`, `C73_handler`, `C73_only`, `C73_net`.

### C74 — A handler can abort the response by panicking (partial)

`C74_iff` is about any ResponseWriter and any point at which the panic may come; `C74_whole` and `C74_abort_partial` about what the client of `net/http` sees (`SeemsWhole`, as in C66).

Theorems: `C74_abort_partial`, `C74_iff`, `C74_whole`.

### C75 — WithContentType normalises the media type it is given (proved)

`Model/Mime.lean` models `mime.ParseMediaType` and `mime.FormatMediaType` of Go 1.17 function by function. `Spec/Media.lean` has the grammar (`Reads`), the meaning of values in other alphabets and in pieces (`Decodes`, `Pieces`, `Has`) and what a string means (`Means`), as relations, without reference to the model. `C75_accepts` and `C75_formats`: which arguments are accepted; `C75_kept`, `C75_same`, `C75_fixed`, `C75_written`: what the value is; `C75_safe`: what is in it; `C75_header`: the same through the Builder. Two peculiarities of `mime` are part of `Means`: parameters of RFC 2231 are left out if there is a semicolon after the last parameter, and two characters outside ASCII (U+0130, U+212A) count as letters in the type, because their lower case does.

Theorems: `C75_accepts`, `C75_formats`, `C75_formattable`, `C75_type`, `C75_safe`, `C75_kept`, `C75_written`, `C75_fixed`, `C75_same`, `C75_meaning`, `C75_header`.

### C76 — Nothing in a Response can be mistaken for the end of it or the start of another (proved)

`Model/Wire.lean` gives the bytes that the server sends for a finished response, for any `Choices` (order of the headers, reason, date, sniffed type, automatic length, chunks, trailers, closing). `Spec/Wire.lean` is a client: it reads lines, fields, chunks and the body as RFC 7230, section 3.3.3, says, and refuses a message whose framing is ambiguous. `C76_message` proves that it reads back what the response says and leaves what follows; `C76_connection` is about any number of responses, `C76_broken` about proper prefixes (the reader is monotonic, `receive_more`), `C76_length_iff` shows that the condition on Content-Length cannot be weakened; `C76_request` and `C76_built` go from a Response or a Builder to the client. `C76_spelling` and `C76_encoding` are responses outside the conditions that a client cannot read. In Go such a Response can be made with `WithHeaders`. `Props/Coding.lean`: Transfer-Encoding headers of the handler. `Spec.fate` says what becomes of a response, from the values of the two headers and whether the server counts; `C76_fate` that this is what a client sees, for all of them; `C76_chunked` that with `chunked` nothing is needed of Content-Length. Only with `identity` and a Content-Length that the server does not take for a number is nothing claimed: client and server may then disagree (`C76_identity_length`).

Theorems: `C76_message`, `C76_connection`, `C76_broken`, `C76_length_iff`, `C76_request`, `C76_built`, `C76_spelling`, `C76_encoding`, `C76_chunked`, `C76_fate`, `C76_identity_length`.

### C77 — A client takes no answer for that to another request (proved)

`Model/Conn.lean` gives what the server sends for a sequence of requests: a whole response if `ServeHTTP` has returned, any prefix of one if it has not; after that the next one, unless fewer bytes were written than declared (`reusable`) or the server wants to close. `Proofs/NetInv.lean` proves an invariant of the response under every call that a Writer makes (`NetInv`: status, headers and declared length stay; the body is no longer than declared; as long as nothing was refused it is as long as what was written), and lifts it through `io.Copy`, the Writer, `Serve` and the Adaptor for arbitrary Bodies (`overNet_inv`). `Proofs/WireShort.lean`: of a response that is too short no prefix is a message. `C77_answers` is by induction over the requests. `C77_short` is a Body that is too short: nothing is reported, the server closes the connection and the client gets no answer; had the server gone on, the client would have taken the start of the next response for the end of this one. `C77_built`: every Response that a Builder makes without headers of those names is of the kind considered. `C77_seems` connects `SeemsWhole` of C66 and C74 with the bytes that a client gets.

Theorems: `C77_answers`, `C77_whole`, `C77_all`, `C77_goes_on`, `C77_built`, `C77_seems`, `C77_short`.

### C78 — Goroutines that use Bodies do not race, in the sense of the Go memory model (partial)

`Spec/HappensBefore.lean` labels the steps of the goroutines (`Did`, `Does`) and defines happens-before on the steps of an execution, conflicting accesses, data races, which writes are visible to a read, and the executions in which a read finds any visible value (`WeakExecution`). `steps_execution` and `execution_steps`: the labelled executions are those of C44. `fam_noDataRace` is for any family of methods that follow the discipline (`Disc`): by induction over the execution, all accesses made so far to a variable that a goroutine may access happen before what it does next (`Sees`), because they happen before the last unlock of the lock that guards it (`Released`), or before the Body was given away (`Published`). `fam_sequential`: in weak executions reads find the last write. `C78_buffered_linearizable` is an example of what follows: C44 for weak executions. `C78_seeker_race`, `C78_seeker_stale`: `seekerBody.BytesRemaining` reads `common.length` without the lock (`body/seeker.go:84`), and may find a length that has been shortened.

Theorems: `C78_readerAt`, `C78_buffered`, `C78_bytes`, `C78_empty`, `C78_seeker_partial`, `C78_seeker_quiet_partial`, `C78_readerAt_sequential`, `C78_buffered_sequential`, `C78_bytes_sequential`, `C78_empty_sequential`, `C78_seeker_sequential_partial`, `C78_buffered_linearizable`, `C78_seeker_race`, `C78_seeker_stale`.

### C79 — A client that reads what FromPrettyJSON serves as JSON gets the value (proved)

`Model/Json.lean` models `encoding/json` of Go 1.17: the escaping of strings, the check of `json.Number`, the sorting of keys, `Indent` with the scanner and its stack of parse states (including the limit of 10000 levels). `Spec/Json.lean` is independent of it: a parser of RFC 8259 on characters (`parse`), what bytes mean (`Says`: they are the UTF-8 form of a text that parses), what a value means (`Means`), how a text is laid out (`Tree`, `lay`, `indented`). `Proofs/JsonText.lean`: what the encoder writes for a string is read back as its characters; `JsonNumber.lean`: numbers that the encoder accepts are those of the grammar; `JsonScan.lean`, `JsonTree.lean`: `Indent` lays out the same tokens; `JsonRead.lean`: a tree is read back with any layout of blanks; `JsonParse.lean`: of a text that parses, with any escapes and blanks, `compact` keeps the tokens, and fails if it is nested too deep (for values that encode themselves); `JsonValue.lean`, `JsonMeans.lean`: `Marshal` succeeds exactly on values with a meaning, and what it writes has that meaning. `C79_client` composes it with C64 and C77. `C79_deep`: a value that can be encoded but makes `FromPrettyJSON` panic, since `Indent` checks the depth and the encoder does not. `C79_plain`: `FromJSON` has a text with the meaning, too, but serves nothing (C24). `Spec/JsonText.lean` has the grammar of RFC 8259 rule by rule, on bytes, with a count of the nesting, and what a text is without the blanks outside of its strings. `Proofs/JsonGrammar.lean`, `JsonAccepts.lean`: the scanner accepts exactly the texts of the grammar nested at most 10000 deep (`acc_text`), both ways, for all bytes. `JsonSteps.lean`, `JsonIndent.lean`: `compact`, `Indent` and the carriage returns turn texts into texts, since they add and drop blanks only where the scanner skips them; `JsonBare.lean`: and change nothing else. `JsonNest.lean`: how deep a text is nested can be counted in its brackets, so that the count of the grammar is unique, `compact` keeps it, and what the encoder writes for a value is nested as deep as the value. `Props/JsonText.lean` has what follows for values that encode themselves as any bytes (`JVal.own`), among it which values are taken, with whatever in them (`C79_takes`, by `Fits`).

Theorems: `C79_means`, `C79_unique`, `C79_layout`, `C79_panics`, `C79_order`, `C79_client`, `C79_plain`, `C79_deep`, `C79_checked`, `C79_served`, `C79_takes`, `C79_refuses`, `C79_plain_takes`, `C79_own`, `C79_own_inside`, `C79_blanks`, `C79_again`, `C79_fixpoint`, `C79_not_utf8`.

### C80 — What a handler tells a Builder is what the client gets (proved)

`Spec/Told.lean` has the calls (`Say`), the plan they lead to (`Plan`, `Leads`; names in lower case, no memory, relations for what is not determined: the text of JSON, of media types, of base64 and of numbers) and when a message fulfils it (`Fulfils`). `Model/Told.lean` runs a chain of calls on the heap model of Builders with a store of Bodies of any kinds (`Model/Shelf.lean`: `Kinds` is any set of implementations that has the one of `FromBytes` in it; `anyKinds` has the four of the repository). `Spec/Ready.lean` says when a Body holds a content: it delivers it and no more whatever is read (`Lively`, `Quits`) and its BytesRemaining is its length or -1; or it is an open `body.Empty()`. `Props/Kinds.lean` proves this of Bodies over a ReaderAt, a ReadSeeker and a Reader, originals and copies, at any position. `Proofs/Told.lean`: each call keeps `Rel` (the value view of the Builder against the plan) or panics where no plan exists (`say_rel`), and so do chains on the heap (`chain_rel`, by `step_sim`). `client_gets` composes it with C64 (the Adaptor over `net/http`) and C76 (the wire and an RFC 7230 client); `values_named`: all header names that are tokens are canonical, so that asking in any spelling finds the same values. The handler starts in any state that a program can bring about (`BState.Lived`: legal events on Builders, and Bodies changed in any way in between). `net_vacant` gives what C64 does not: the empty Body, whose EOF the Adaptor passes to OnPanic. `C80_connection` puts such exchanges one after the other on a connection (C77). WithHeaders with a map of the program and WithPageGenerator are among the calls: `Around` says which values the maps have and which pages the generators make, `Say.Known` that the heap and the environment are so (`Heap.Offers`, `Kinds.Makes`); that a map of the program is the same before each later call of the chain is `say_known`, from `step_ext`. Examples with both are in `Props/Around.lean`. `Model/Woven.lean` and `C80_woven`: the calls of the handler interleaved with anything that others do (events with other Builders and Responses, with header maps, with Bodies), as long as they leave the Bodies and maps of this handler alone; and the Response is still as planned when it is sent later (`After`). One call of a method is one step there. `Props/ToldCopies.lean`: a Response with a Body that can be copied (`Kinds.Copies`; true of all kinds of Bodies of the repository, by their simulation by cursors) is copied; either of the two arrives as planned, also after the other was served, and the copy of a Response with a closed Body has a closed Body. `Props/Forked.lean` (`C80_forked`): a Builder is copied in the middle of a chain of calls, and both are used further, in any interleaving. Left out of the calls: WithJSON (C24), direct access to the header map.

Theorems: `C80_client`, `C80_woven`, `C80_connection`, `C80_readerAt`, `C80_seeker`, `C80_stream`, `C80_copied`, `C80_copied_closed`, `C80_forked`, `C80_mem_copies`, `C80_empty_copies`, `C80_readerAt_copies`, `C80_seeker_copies`, `C80_stream_copies`.

### C81 — Clients of HTTP/1.0 get the response too, and know when it is cut if its length was told (proved)

`Model/Wire10.lean` is what `net/http` (Go 1.17) writes for a request of HTTP/1.0: `plan10` are the decisions of `chunkWriter.writeHeader` (no chunks, Transfer-Encoding left out, `Connection: keep-alive` if asked for and the length is told), `wire10` the bytes, `keeps10` whether the connection stays open. `Spec/Wire10.lean` is the client; it shares lines and fields with the HTTP/1.1 client, and its body is what Content-Length says, or all up to the end. `receive_wire10` (Proofs) computes what the client gets; `C81_message` says it fits the response (`Says`, as for C76), `C81_untilEnd_iff` when the length is not told, `C81_broken`/`C81_cut` what becomes of a cut response in either case, `C81_connection` is about sequences, `C81_request` end to end from a Response, by C64. `C81_length_iff`: the condition on Content-Length is needed; `C81_number` is a response that an HTTP/1.1 client can read and an HTTP/1.0 client cannot. `C81_noticed`/`C81_failing` are about Bodies that fail (C66): the client notices if more was declared, and otherwise never, not even if `OnPanic` panics. The conclusion of C80 (`Spec.Told.Arrives`) includes such clients. `C81_keepAlive`: what the client is told about the connection, and whether it stays open.

Theorems: `C81_message`, `C81_untilEnd_iff`, `C81_broken`, `C81_cut`, `C81_connection`, `C81_request`, `C81_length_iff`, `C81_number`, `C81_keepAlive`, `C81_short`, `C81_noticed`, `C81_failing`.

### C82 — Floating-point numbers in JSON are read back as the numbers that they are (proved)

`Model/JsonFloat.lean` has `floatEncoder` of `encoding/json`: the choice between the formats, `%e` and `%f` of `strconv` from given digits and a position of the point, and the shortening of `e-09` to `e-9`. Which digits `strconv` finds is not modelled; `Reads` assumes that they round to the number, which is what shortest formatting promises, for a rounding `rnd` of either type. `Proofs/JsonFloat.lean` reads both formats back by the grammar of C79. `f64` of `Model/Float.lean` is such a rounding (`f64_rounding`). `Props/JsonFloatAll.lean`: every `n * 2^k` with `n < 2^53` and `k` from -1074 to 971 has digits that are read as it, and the shortest are at most 17 (what is nearer than `2^-54` of a number is rounded to it, and of the decimals of 17 digits one is).

Theorems: `C82_exact`, `C82_read`, `C82_served`, `C82_distinct`, `C82_form`, `C82_special`, `C82_all`, `C82_shortest`.

### C83 — A Reader that uses the Bodies made of it waits for itself (proved)

`Model/CallBack.lean` turns the programs of the methods (`Model/ConcBuf.lean`, `Model/ConcPos.lean`) into those of a family whose Reader makes calls: wherever a method calls the Reader (it gets the Reader's state), the programs of the calls that the Reader makes in that state (a tree, `ReaderDoes`: each call, and the answer, may depend on what the calls before returned) are run first, by the same goroutine, with the mutexes held that are held. `C83_quiet`: for a Reader that makes no calls these are the programs of C44 and C45. `Spec/CallBack.lean` says what never returning means (`Waits`: no return is seen, the mutex is kept, others that wait for it still wait) and lists the calls that do without the shared part (`StreamApart`, `ReaderAtApart`, `SeekerApart`), in terms of the fields of the Body called. The theorems hold from every reachable state in which a goroutine is at the Reader (`C83_stream` etc., first call) or has the mutex and is about to make a call (`C83_..._later`, any call), and for every continuation: either it waits, or the call is on a Body whose mutex it does not hold and the exception was true at some moment from then on. `C83_..._apart`: each of the exceptions is one: the call returns, with the result of running it alone. Proof: a discipline of locks that allows for locking twice (`Tidy`), and a syntactic criterion for programs that cannot get past a mutex that is held (`Needs`). Two examples beside the theorems run the model up to the Reader and apply them.

Theorems: `C83_stream`, `C83_readerAt`, `C83_seeker`, `C83_stream_apart`, `C83_readerAt_apart`, `C83_seeker_apart`, `C83_stream_later`, `C83_readerAt_later`, `C83_seeker_later`, `C83_quiet`.

### C84 — A Writer that uses the Body that is written into it waits for itself (proved)

`Model/WriteBack.lean` puts what a Writer does (a tree, `WriterDoes`: each call, and the answer, may depend on what the calls before returned) into the program of `WriteTo` at the place where `Write` is called, with `body.mu` held; a `WriteTo` among these calls has a Writer that may make calls, to a depth `n` that is arbitrary. `C84_quiet`: with Writers that make no calls the programs are those of C44. `Spec/WriteBack.lean` lists how `WriteTo` can return (`Wrote`) and says what waiting for ever means (`WaitsFor`). `C84_returns`: from every reachable state, along every interleaving, the first return of the goroutine is one of these. `C84_caught`: a call on a Body that the goroutine is in does not return; `C84_deadlock`: a Writer whose first call is one leads there; `C84_crossed`: so do two goroutines with exchanged Bodies. `C84_ordered`: if Writers use Bodies in an order (any ranking), some goroutine in a call can always step, and all calls return (in the sense of C45); the examples show an order, and that there is none for exchanged Bodies. `C84_alone`: a call that is `Clear` (no Writer on the way uses a Body that is in use) returns if no mutex is held; `C84_same` and `C84_sequence` say what it returns and leaves behind. `C84_noRace`: in no reachable state are two goroutines about to access the same field, one of them to write it (`Race`, as in C44), provided that Writers use Bodies they can know (`Knows`: a Body that is yet to be made cannot be used). Proof: `Proofs/Locks.lean` (shared with C83), two disciplines of locks (`Fits`: proper if nothing is locked twice; `Strict`: nothing is), and programs that leave a Body alone (`Off`). Not modelled: Writers that remember what earlier calls of `Write` did; Writers that start goroutines and wait for them.

Theorems: `C84_returns`, `C84_caught`, `C84_deadlock`, `C84_crossed`, `C84_ordered`, `C84_alone`, `C84_same`, `C84_sequence`, `C84_noRace`, `C84_quiet`.

### C85 — A Response is sent over HTTP/2 exactly if it can be sent without pushes and no push fails (proved)

`Model/Push.lean` has `Push` of the ResponseWriter for HTTP/2 (its checks, with `url.Parse`; the answer of the goroutine of the connection is any function of how many targets it was asked about) on top of `netRW`. `Spec/Push.lean` says by a grammar what may be pushed (`Pushable`) and when pushes go well (`GoWell`). `check_iff`: the checks are passed exactly by these targets (`C85_targets` in terms of `Push`). `C85_sent`: for every Response and Body, if pushes go well, the response, metrics and outcome are those of `netRW` without pushes, so that the theorems of C64 and those that build on it apply. `C85_refused`: otherwise. `C85_iff` puts both together. `C85_relative`, `C85_recursive`: relative paths, and requests that are themselves pushed. Proof: a map between the states of the two ResponseWriters (`emb`, `Copies`). This corrects the simplification in C64 that a client that wants no pushes answers every `Push` with `http.ErrNotSupported`: targets are checked first. It is a consequence of the finding under C35 and C36 that a failed push ends `Serve`. Not modelled: `parseAuthority` (a parameter), settings of the client that change while a push is under way other than by the answer.

Theorems: `C85_sent`, `C85_refused`, `C85_iff`, `C85_targets`, `C85_relative`, `C85_recursive`.

### C86 — In an http.TimeoutHandler a Response arrives exactly if it is in time and arrives without one (proved)

`Model/TimeoutHandler.lean` has the `timeoutWriter` of `net/http`, a ResponseWriter that keeps everything in memory, and `ServeHTTP` of its handler, which then passes it on to the response of `Model/NetHttp.lean` with one `Write`. The moment when the time is up is an input. `C86_in_time` computes response, metrics and outcome; `C86_iff` compares with C64 (the same `Intact` and `HasRoom`); `C86_unnoticed` is the difference. `C86_late`: for everything a handler may do, at any time. `C86_told`, `C86_too_late`: what the Adaptor counts if the time is up before the first or after the last Write; `C86_any`: at any time. `C86_panics`: handlers that panic in time; here, unlike without the TimeoutHandler (C74), an OnPanic that panics can still have the connection cut, as nothing has been sent. `C86_failing` (`Props/TimeoutFailing.lean`): Bodies that fail, as in C66; if OnPanic returns, what came before is sent as if it were whole (`C86_failing_undeclared`). Proof: the ResponseWriter takes everything (`Takes`, as in C55) or refuses everything (`refused_ioCopy`), or first the one and then the other (`Fickle`). Not modelled: cancellation of the context of the request, which this package does not look at; pushes, which pass through.

Theorems: `C86_in_time`, `C86_iff`, `C86_unnoticed`, `C86_late`, `C86_told`, `C86_too_late`, `C86_any`, `C86_panics`, `C86_failing`, `C86_failing_undeclared`, `C86_bytes`, `C86_readerAt`, `C86_seeker`, `C86_stream`.

### C87 — What a test records with an httptest.ResponseRecorder tells whether the Response would arrive over net/http (proved)

`Model/Recorder.lean` has the `ResponseRecorder` of `net/http/httptest`, which accepts everything. `C87_recorded` computes what is recorded, metrics and outcome; `C87_iff` compares with C64: the check `Plausible`, of the recorder alone, holds exactly if the Response arrives `Intact` over the response of `Model/NetHttp.lean`; `C87_same`: and then everything agrees. `C87_failing`: Bodies that fail; what is recorded is that of `C87_recorded`, so `Plausible` cannot tell. `C87_panics`: handlers that panic. `C87_direct` (`Props/RecorderDirect.lean`): the recorder itself, for every sequence of calls. Not modelled: `Result()` and trailers.

Theorems: `C87_recorded`, `C87_iff`, `C87_same`, `C87_failing`, `C87_panics`, `C87_direct`.

## Where the code deviates from what one would expect

Each of these is backed by a theorem (named) about the model; none was tested by running the code.

1. `FromJSON` always returns an empty Body: it copies the encoding into a nil slice (`C24_false`).
2. `emptyBody.WriteTo` returns `io.EOF`, so `io.Copy` from an empty Body fails (`C08_copy_empty_fails`), `Serve` of a Response with an empty Body
   returns an error (`C08_serve_empty_fails`), and the Adaptor counts it as a panic (`C42_empty_body_counts_as_panic`).
3. `bytesBody.WriteTo` marks the end although the writer accepted only part: `BytesRemaining` is positive but `Read` returns `io.EOF`
   (`C06_false_after_partial_write`).
4. `emptyBody.ReadAt` accepts negative offsets (`C04_empty_negative_offset`).
5. A failing Read on one copy of a ReaderAt- or Seeker-backed Body truncates the shared length, so that other copies end early
   (`C17_false_readerAt`).
6. Seeker-backed bodies treat a short read as the end (`C18_false`), and their `ReadAt` returns short counts without an error (`C19_false`).
7. Seeker-backed `BytesRemaining` can be any negative number, also −1 although the length is known (`C20_false_seeker`), and reads the shared
   length without the lock, which is a data race (`C44_seeker_race`).
8. `Seek` to a target beyond 2^63−1 wraps around and reports a negative computed offset (`C03_…`, `Spec.seekAnswer`).
9. `Serve` returns without closing the Body if a push fails (`C35_not_closed_after_push_failure`). Over HTTP/2 a Response whose Push header has a relative path, more values
   than the client takes, or any value when the request is itself a pushed one is not sent at all: the client gets an empty 500 (`C85_refused`).
10. With a Body that implements `io.WriterTo`, `Serve` does not notice a ResponseWriter that writes too little without an error
    (`C34_short_write_unnoticed`).
11. `fancyWriter.ReadFrom` does not set `sawError` (`C39_false`).
12. `NewWriter` drops `Hijack`, `CloseNotify` and `ReadFrom` unless the wrapped writer has all of them and `Flush` (`C40_capabilities`).
13. The Adaptor counts a request whose handler panicked under code 0 although the client got 500 (`C43_panic_counted_under_zero`); `panic(nil)`
    is not counted (`C42_panic_nil`).
14. The map returned by `Builder.Headers()` is handed over to the Response, not copied (`C30_handed_over`, `C30_kept_map_changes_response`);
    `Response.Copy` shares the header map (`C30_copy_shares`); a PageGenerator that returns a shared map gets it modified by `Build`
    (`C30_shared_generator`).
15. After `ErrorPage`/`RedirectPage` followed by `WithBody` the Content-Length of the generated page is kept (`C48_stale_content_length`).
16. `FromReader` on an `fs.File` takes the size from `Stat` as the length without seeking; on a file that has been read from before, and that is
    neither ReaderAt nor Seeker, the advertised length is too large (C23: the length is that of `Stat`; C09: the content is what the Reader delivers).
17. If the `Close` of a plain Reader panics, the stream-backed Body is left half dismantled: it is not closed, `Copy` panics (nil map), `Read`
    panics (slice bounds) or returns `(0, nil)`, and a second `Close` returns nil (`C49_zombie`, `C49_false`).
18. The Writer suppresses the body of a 204 but not of a 304: over `net/http` a 304 with a non-empty Body makes `Serve` fail with
    `http.ErrBodyNotAllowed`, and the Adaptor counts and reports a panic although the client got the right answer (`C64_304`).
19. A Content-Length header that is too large (for instance after deviation 15) is reported nowhere, and the client gets an incomplete message
    (`C64_too_short`); one that is too small is reported as a panic and the body is cut (`C64_too_long`).
20. The received-bytes metrics are always 0 (a FIXME in the code; `C63_recv`).
21. If the source of a Body fails in the middle of a response that has no Content-Length header (which the Builder adds only if the length is known), the
    Adaptor recovers the panic and hands the error to `OnPanic`, which by default does nothing. `ServeHTTP` returns normally, so `net/http` ends the message
    properly: the client gets the part as if it were the whole (`C66_undeclared`, `C66_fails`, `C66_same`). An `OnPanic` that panics with `http.ErrAbortHandler`
    would prevent that.
22. `Serve` hands the slices of the Response to the ResponseWriter without copying them, and the copies of a Response have the same map. If a slice has spare
    capacity (as `append` leaves it: `WithHeader(…, true)` three times), a value added to the headers of one ResponseWriter replaces the one added to another's
    (`C68_leaks`, `C68_iff`). Whoever assigns to an element in place changes the Response itself (`C68_in_place`).
23. A program that has registered a metric called, say, `http_requests_total` (a common name) with the default registry panics when it is started, with
    whatever labels (`C70_init`).
24. The count of the Bodies over one Reader is an `int32` without a check: after 2^31 copies the first `Close` closes the Reader under all of them
    (`C71_too_many`). Where `int` has 32 bits, a `Read` of a stream-backed Body with a buffer close to 2^31 bytes panics in `make`, with the mutexes
    released by their defers (`C71_no_room`).
25. A handler cannot abort a response: the Adaptor recovers a panic with `http.ErrAbortHandler` like any other, sends 500 if nothing has been sent, and
    returns if `OnPanic` returns, so that the client gets what looks like a whole response (`C74_whole`); the panic is also counted and reported.
26. `FromPrettyJSON` panics for values nested more than 10000 deep, which `FromJSON` (and `json.Marshal`) encode (`C79_deep`, `C79_panics`): `json.Indent`
    reads the encoded text with a scanner that has this limit.
27. `FromPrettyJSON` may serve what is not JSON according to RFC 8259: of a value that encodes itself (a `json.RawMessage`), strings are passed on that are
    not UTF-8 (`C79_not_utf8`) or have half of a surrogate pair in them; the scanner of `encoding/json` does not look at that.


## Axioms

`#print axioms` of every theorem claimed in `MANIFEST.json` (names without the prefix `Verif.`). Nothing else is used: no own axioms, no `sorryAx`,
no `Lean.ofReduceBool`/`Lean.trustCompiler`.

* no axioms: C05_alreadyClosed, C39_false, C40_capabilities, C40_same, C40_wrapped

* `propext`: C04_empty_negative_offset, C05_closed_inert_mem, C06_empty, C08_copy_empty_fails, C08_copy_empty_partial, C08_empty_writeTo_reports_eof, C24_encoder_error_partial, C25_encoder_error, C25_every_lf_has_cr, C25_lossless, C39_no_readFrom, C40_not_invented, C40_readFrom_present, C44_real_time, C44_seeker_race, C52_nil, C61_calls, C67_only, C67_trails, C72_closed_served, C72_stuck_served, C84_quiet, C84_sequence

* `Quot.sound`, `propext`: C03_failed_seek_changes_nothing, C05_closed_inert_readerAt, C05_closed_inert_seeker, C06_false_after_partial_write, C09_log_is_transparent, C10_calm_until_close_panics, C15_only_close_closes_positional, C16_calls_return, C17_false_readerAt, C18_calls_return, C20_false_seeker, C20_remaining_readerAt, C21_sticky_readerAt, C21_sticky_seeker, C22_body_unchanged, C22_fromReader, C22_nil, C37_before, C37_out_of_range, C40_no_missing_interface, C44_linearizable_sequential, C46_copyHeaders, C49_closed_positional, C49_false, C52_counts, C52_report, C53_record, C53_scriptable, C53_stand_in, C54_lends, C57_make, C60_body, C61_pool, C61_put, C67_bounded, C67_no_deadlock, C67_no_race, C67_turns, C71_no_room, C72_closed_read, C78_seeker_race, C80_empty_copies, C83_quiet, C83_readerAt, C83_readerAt_apart, C83_readerAt_later, C83_seeker, C83_seeker_apart, C83_seeker_later, C83_stream, C83_stream_apart, C83_stream_later, C84_same

* `Classical.choice`, `Quot.sound`, `propext`: C01_bytes_refine_cursors, C01_no_panic, C02_read_concat, C02_read_exact, C03_seek_any_readerAt, C03_seek_any_seeker, C03_seek_mem, C03_seek_readerAt, C03_seek_seeker, C04_readAt_bytes, C04_readAt_readerAt, C05_closed_inert_stream, C06_iff, C06_remaining_exact_partial, C07_writeTo_drains, C08_serve_empty_fails, C09_calls_return, C09_stream_content, C09_stream_refines_cursors, C10_no_panic, C10_panics_blame_reader, C11_nothing_after_close, C11_window, C12_quiet_after_end, C12_requests, C13_full_or_error, C14_exact_once_known, C14_exact_with_correct_length, C14_remaining, C15_close_answers_readerAt, C15_close_answers_seeker, C15_close_answers_stream, C15_closed_exactly_once_readerAt, C15_closed_exactly_once_seeker, C15_closed_exactly_once_stream, C15_only_close_closes_stream, C16_iff, C16_readerAt_refines_cursors, C17_cut, C17_iff, C17_right_bytes_readerAt_partial, C18_false, C18_iff, C18_right_bytes_seeker_partial, C18_seeker_refines_cursors_partial, C19_false, C19_iff, C19_readAt_seeker_partial, C20_exact_readerAt, C20_iff, C20_remaining_seeker_partial, C20_remaining_stream, C22_positional, C22_streaming, C23_content_readerAt, C23_content_seeker_partial, C23_content_stream, C23_declared, C23_seek, C23_stat, C23_unknown, C24_false, C25_length, C25_pretty, C25_proto, C25_protoText, C26_built, C26_last_set, C26_range, C26_rejected, C27_headers, C28_no_body, C28_reset, C29_as_values, C29_copy, C29_others_unchanged, C29_unaffected, C29_withHeaders, C30_copy_shares, C30_handed_over, C30_isolated, C30_kept_map_changes_response, C30_shared_generator, C31_append, C31_content_type, C31_content_x, C31_empty_name, C31_names, C31_nothing_else, C31_remove, C31_set, C32_digest, C32_digest_unambiguous, C32_etag, C32_etag_unambiguous, C32_rejected, C33_blank, C33_error, C33_escaped, C33_redirect, C34_bytes, C34_content, C34_content_bytes, C34_content_readerAt, C34_content_seeker, C34_content_stream, C34_copy_count, C34_nil_iff, C34_order, C34_short_write_unnoticed, C35_at_most_once, C35_closed_once_partial, C35_false, C35_iff, C35_not_closed_after_push_failure, C36_all_pushed, C36_no_pusher, C36_push_not_sent, C36_stops_at_failure, C37_first, C37_repeated, C37_status_once_and_first, C38_bytes_written, C38_no_body, C38_write_forwards, C38_write_succeeds, C39_iff, C39_saw_error_partial, C41_counted_once, C41_nested, C41_one_status, C41_returns, C42_empty_body_counts_as_panic, C42_handler_panics, C42_panic_nil, C42_response, C43_iff, C43_label_or_zero, C43_label_partial, C43_panic_counted_under_zero, C44_buffered, C44_buffered_cursors, C44_buffered_no_race, C44_bytes, C44_bytes_cursors, C44_bytes_no_race, C44_empty, C44_empty_cursors, C44_empty_no_race, C44_readerAt, C44_readerAt_cursors, C44_readerAt_no_race, C44_seeker, C44_seeker_cursors, C44_seeker_no_race_partial, C44_seeker_races_for_length, C45_buffered, C45_buffered_order, C45_bytes, C45_empty, C45_readerAt, C45_seeker, C46_iteration_order_serve, C46_iteration_order_stream, C47_panics_blame_readerAt, C47_panics_blame_seeker, C48_content_length_partial, C48_iff, C48_stale_content_length, C49_zombie, C50_content, C50_negative_count, C50_suppressed, C50_transparent, C51_errors, C51_goString, C51_has_goString, C51_panic, C51_panic_parts, C51_read_error, C51_read_goString, C51_response, C51_three_digits, C51_wrapped, C52_accepts, C52_isDir, C52_script, C54_as_lists, C54_buffered, C54_bytes, C54_keeps_nothing, C54_readerAt, C54_seeker, C54_shares, C55_built, C55_bytes, C55_error_page, C55_readerAt, C55_redirect_page, C55_request, C55_seeker, C55_serve, C55_stream, C56_builder, C56_builder_closed, C56_bytes, C56_readerAt, C56_response, C56_response_closed, C56_seeker, C56_stream, C57_shared_reader, C57_shared_reader_stays, C58_buffered, C58_bytes, C58_close, C58_over_seekable, C58_over_stream, C58_readerAt, C58_seekable, C58_seeker, C58_stream, C59_call, C59_call_go, C59_differ, C59_line, C59_line_go, C59_nothing, C59_ops, C59_report, C60_adaptor, C60_blocked, C60_end, C60_end_memory, C60_memory, C60_overrun, C60_request, C60_serve, C60_writer, C61_as_lists, C61_body, C61_content, C61_ends, C61_exclusive, C61_own, C61_panics, C62_filled_readerAt, C62_filled_seeker, C62_no_further_readerAt, C62_no_further_seeker, C62_readerAt, C62_seeker, C62_smooth_readerAt, C62_smooth_seeker, C63_adds_up, C63_by_status, C63_by_status_500, C63_labels, C63_never_less, C63_quiet, C63_recv, C63_scrape, C64_304, C64_built, C64_bytes, C64_declared, C64_iff, C64_readerAt, C64_request, C64_seeker, C64_stream, C64_too_long, C64_too_short, C65_alone, C65_bytes, C65_copies, C65_readerAt, C65_seeker, C65_serve, C65_stream, C65_through, C66_built, C66_declared_partial, C66_fails, C66_readerAt, C66_reported, C66_request, C66_same, C66_seeker, C66_stream, C66_undeclared, C66_whole_iff, C67_each_once, C67_ordered, C67_script, C67_settled, C68_built, C68_copied, C68_iff, C68_in_place, C68_leaks, C68_separate_partial, C69_any_time, C69_inexact, C69_lost, C69_never_less, C69_quiet, C70_buckets, C70_distinct, C70_exponential, C70_increasing, C70_init, C70_labels, C70_register, C70_starts, C71_adaptor, C71_boaster, C71_bytes, C71_readerAt, C71_seeker, C71_stream, C71_stream64, C71_too_many, C71_writer, C71_writer_exact, C72_bytes, C72_copyN, C72_limit, C72_limit_beyond, C72_multi, C72_readAll, C72_readAtLeast, C72_readFull, C72_readerAt, C72_section, C72_seeker, C72_serveContent, C72_short_seeker, C72_stream, C72_usable, C73_exit, C73_handler, C73_net, C73_only, C74_abort_partial, C74_iff, C74_whole, C75_accepts, C75_fixed, C75_formats, C75_formattable, C75_header, C75_kept, C75_meaning, C75_safe, C75_same, C75_type, C75_written, C76_broken, C76_built, C76_chunked, C76_connection, C76_encoding, C76_fate, C76_identity_length, C76_length_iff, C76_message, C76_request, C76_spelling, C77_all, C77_answers, C77_built, C77_goes_on, C77_seems, C77_short, C77_whole, C78_buffered, C78_buffered_linearizable, C78_buffered_sequential, C78_bytes, C78_bytes_sequential, C78_empty, C78_empty_sequential, C78_readerAt, C78_readerAt_sequential, C78_seeker_partial, C78_seeker_quiet_partial, C78_seeker_sequential_partial, C78_seeker_stale, C79_again, C79_blanks, C79_checked, C79_client, C79_deep, C79_fixpoint, C79_layout, C79_means, C79_not_utf8, C79_order, C79_own, C79_own_inside, C79_panics, C79_plain, C79_plain_takes, C79_refuses, C79_served, C79_takes, C79_unique, C80_client, C80_connection, C80_copied, C80_copied_closed, C80_forked, C80_mem_copies, C80_readerAt, C80_readerAt_copies, C80_seeker, C80_seeker_copies, C80_stream, C80_stream_copies, C80_woven, C81_broken, C81_connection, C81_cut, C81_failing, C81_keepAlive, C81_length_iff, C81_message, C81_noticed, C81_number, C81_request, C81_short, C81_untilEnd_iff, C82_all, C82_distinct, C82_exact, C82_form, C82_read, C82_served, C82_shortest, C82_special, C84_alone, C84_caught, C84_crossed, C84_deadlock, C84_noRace, C84_ordered, C84_returns, C85_iff, C85_recursive, C85_refused, C85_relative, C85_sent, C85_targets, C86_any, C86_bytes, C86_failing, C86_failing_undeclared, C86_iff, C86_in_time, C86_late, C86_panics, C86_readerAt, C86_seeker, C86_stream, C86_told, C86_too_late, C86_unnoticed, C87_direct, C87_failing, C87_iff, C87_panics, C87_recorded, C87_same, bytes_le_iff, f64_near, f64_nearest, roundEven_tie, seconds_le_iff, serve_is_transparent, serve_leads
