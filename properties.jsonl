{"id": "C01", "title": "Bytes-backed bodies behave as independent cursors", "statement": "For any byte slice, the Body returned by FromBytes (or FromString) and all Bodies obtained from it by Copy answer every Read, ReadAt, Seek, BytesRemaining, Copy, Close and Unwrap exactly as independent cursors over that slice would: Read delivers the next min(len(p), remaining) bytes and reports io.EOF exactly when fewer than len(p) bytes were left (and then keeps reporting it until a Seek succeeds); no operation on one Body is visible through another; nothing panics.", "quantifier": "every byte slice, every finite interleaving of operations on the body and its copies, all buffer sizes, offsets and whence values", "why_tests_cant": "Histories, buffer sizes and copy trees are unbounded; tests replay one short script on a 4-byte body.", "anchors": ["body/body.go:FromBytes", "body/body.go:FromString", "body/bytes.go:bytesBody", "body/empty.go:emptyBody"]}
{"id": "C02", "title": "Reading a bytes-backed Body to EOF yields exactly its content", "statement": "Reading a FromBytes body with any sequence of buffer sizes delivers, concatenated, a prefix of the slice; as soon as a Read reports io.EOF the concatenation is the whole slice; and no byte is delivered twice or skipped.", "quantifier": "every slice and every sequence of buffer lengths", "why_tests_cant": "The number of chunkings is exponential in the size of the content.", "anchors": ["body/bytes.go:bytesBody.Read", "body/empty.go:emptyBody.Read"]}
{"id": "C03", "title": "Seek is a clamped absolute seek and fails without side effects", "statement": "On any open seekable Body of length n at position q: Seek(o, whence) succeeds iff whence is SeekStart/SeekCurrent/SeekEnd and the target (o, q+o or n+o) is non-negative and representable as int64; it then moves to min(target, n), clears the end-of-file state and returns the new position. Otherwise it returns -1 with the documented error and changes nothing.", "quantifier": "every kind of seekable body (empty, bytes, ReaderAt-backed, Seeker-backed), all int64 offsets, all whence values, all reachable positions", "why_tests_cant": "The interesting values are at the int64 boundaries (wrap-around) and every (position, length) pair.", "anchors": ["body/bytes.go:bytesBody.Seek", "body/empty.go:emptyBody.Seek", "body/readerat.go:readerAtBody.Seek", "body/seeker.go:seekerBody.Seek", "body/errors.go"]}
{"id": "C04", "title": "ReadAt is a pure positional read", "statement": "On an open bytes-backed or well-behaved ReaderAt-backed Body, ReadAt(p, off) with off >= 0 returns exactly the bytes of the content at [off, off+len(p)) that exist, reports an error whenever it returns fewer than len(p) bytes, rejects negative offsets, and never moves the cursor or changes the result of any other operation on any copy. (The empty Body does not reject negative offsets: it answers them like any other offset.)", "quantifier": "all contents, offsets, buffer sizes and histories", "why_tests_cant": "All offset/length combinations, and absence of an effect on all later operations.", "anchors": ["body/bytes.go:bytesBody.ReadAt", "body/empty.go:emptyBody.ReadAt", "body/readerat.go:readerAtBody.ReadAt"]}
{"id": "C05", "title": "A closed Body is inert forever", "statement": "After Close has been called on a Body of any kind, every later Read, ReadAt, Seek and Close on it returns fs.ErrClosed (with 0, 0, -1), BytesRemaining returns 0, Unwrap returns nil, Copy returns an already-closed Body, the backing Reader is not touched through it, and no other Body is affected by such calls; AlreadyClosed() is such a Body from the start.", "quantifier": "all body kinds, all backing readers (also misbehaving ones), all histories before and after the Close", "why_tests_cant": "Quantifies over every continuation after Close and every state in which Close is called.", "anchors": ["body/closed.go:closedBody", "body/empty.go:emptyBody.Close", "body/bytes.go:bytesBody.Close", "body/buffered.go:bufferedBody.Close", "body/readerat.go:readerAtBody.Close", "body/seeker.go:seekerBody.Close"]}
{"id": "C06", "title": "BytesRemaining is exact for bytes-backed bodies", "statement": "For a FromBytes body and its copies BytesRemaining equals the number of bytes that reading that Body to EOF would deliver, in every reachable state. (False of the code after a WriteTo whose writer fails part-way: BytesRemaining is then positive although Read only returns io.EOF; true for histories without such a WriteTo.)", "quantifier": "all contents and all histories", "why_tests_cant": "Must hold after every history, including failing writers.", "anchors": ["body/bytes.go:bytesBody.BytesRemaining", "body/bytes.go:bytesBody.WriteTo"]}
{"id": "C07", "title": "WriteTo drains a bytes-backed Body exactly once", "statement": "WriteTo on an open bytes-backed Body that has not reported EOF hands the writer exactly the remaining bytes in one Write, returns the writer's count and error, advances the cursor by that count, and makes every later Read report io.EOF and every later WriteTo write nothing, until a Seek succeeds; a writer that reports an impossible count causes a panic, a writer that panics passes its panic on, and both leave the Body unchanged.", "quantifier": "all contents, positions and writers", "why_tests_cant": "Quantifies over every writer behaviour (short, failing, impossible counts, panics).", "anchors": ["body/bytes.go:bytesBody.WriteTo"]}
{"id": "C08", "title": "Copying an empty Body with io.Copy succeeds", "statement": "io.Copy from an open empty Body writes nothing and returns (0, nil). (False of the code: emptyBody.WriteTo returns io.EOF, which io.Copy passes on as an error.)", "quantifier": "all open empty bodies, all writers", "why_tests_cant": "A claim about every empty body and every destination; the existing tests never call WriteTo.", "anchors": ["body/empty.go:emptyBody.WriteTo", "response/response.go:Response.Serve"]}
{"id": "C09", "title": "Stream-backed bodies: every copy sees the same stream", "statement": "A Body made by FromReader/FromReaderAndLength over a plain Reader, together with all its copies, behaves as independent cursors over the Reader's byte stream (cut at the declared length, if any): each Body receives exactly the bytes of the stream from the position at which it was created, in order, without loss or duplication, whatever the others read, copy or close, and whatever chunk sizes the Reader returns; the Reader's terminal error (io.EOF at the declared length) is reported exactly when a Read asks for more than is left, and from then on.", "quantifier": "all streams, all chunkings by the Reader, all declared lengths, all interleavings of Read/Copy/Close/BytesRemaining over any number of copies", "why_tests_cant": "Shared buffer, reference-counted window and copy trees: state space unbounded; existing tests use one body and 4 bytes.", "anchors": ["body/buffered.go:bufferedBody.Read", "body/buffered.go:bufferedBody.Copy", "body/buffered.go:bufferedCommon"]}
{"id": "C10", "title": "Stream-backed bodies never trip their internal assertions", "statement": "For every Reader that respects the io.Reader contract (0 <= n <= len(p)), and for every Reader at all apart from the panic that reports the violation, no sequence of calls on a stream-backed Body and its copies makes an internal assertion fail or a slice index go out of range, as long as the Close of the Reader does not panic.", "quantifier": "all readers, all interleavings", "why_tests_cant": "Assertions guard invariants over all histories.", "anchors": ["body/buffered.go:bufferedCommon.advance", "body/buffered.go:bufferedCommon.updateStart", "body/buffered.go:bufferedBody.Read"]}
{"id": "C11", "title": "Stream-backed bodies retain exactly the window still needed", "statement": "At any time the bytes retained for a stream-backed family are exactly those between the position of its slowest open copy and the furthest byte obtained from the Reader; when the slowest copy advances or is closed the bytes no longer needed are dropped, and when the last copy is closed nothing is retained.", "quantifier": "all readers and histories", "why_tests_cant": "The window's lower end depends on the minimum over all open copies after every history.", "anchors": ["body/buffered.go:bufferedCommon.updateStart", "body/buffered.go:bufferedCommon.unref", "body/buffered.go:bufferedCommon.advance"]}
{"id": "C12", "title": "The Reader behind a stream-backed Body is consulted only when needed and never after it ended", "statement": "The Reader is called only by a Read that asks for bytes not yet obtained; in total no more bytes than the declared length are requested; a single Body.Read requests less than len(p)+65536 bytes beyond what was obtained; once the Reader has returned an error, or the declared length has been reached, it is never called again.", "quantifier": "all readers, declared lengths and histories", "why_tests_cant": "Trace property over all histories.", "anchors": ["body/buffered.go:bufferedBody.Read"]}
{"id": "C13", "title": "Stream-backed Read fills the buffer unless the stream ends", "statement": "If a Read on an open stream-backed Body returns without error then it has filled the whole of p; it returns an error exactly when the stream ended (or failed) before p was full, and delivers all earlier bytes first.", "quantifier": "all readers, buffer sizes and histories", "why_tests_cant": "Must hold for all chunkings, including readers that return short or empty reads.", "anchors": ["body/buffered.go:bufferedBody.Read"]}
{"id": "C14", "title": "Stream-backed BytesRemaining is exact once known and -1 before", "statement": "With no declared length BytesRemaining of an open stream-backed Body is -1 until the Reader has ended, and from then on is, for every open copy, exactly the number of bytes that copy can still read; with a correct declared length it is exact from the start.", "quantifier": "all readers, lengths and histories", "why_tests_cant": "Holds after every history, for every copy, at the moment any other copy discovers the end.", "anchors": ["body/buffered.go:bufferedBody.BytesRemaining"]}
{"id": "C15", "title": "The backing Reader is closed exactly once, by the last Close", "statement": "For every reader-backed Body kind: the backing Reader's Close is called exactly once, during the Close call that closes the last open copy, never earlier; that Close call returns the Reader's Close error, every earlier first Close of a copy returns nil; if the Reader is no io.Closer, Close returns nil.", "quantifier": "all reader-backed kinds, all (also misbehaving) readers, all copy trees and closing orders", "why_tests_cant": "Reference counting over all copy/close orders.", "anchors": ["body/buffered.go:bufferedCommon.unref", "body/readerat.go:readerAtCommon.unref", "body/seeker.go:seekerCommon.unref"]}
{"id": "C16", "title": "ReaderAt-backed bodies behave as independent cursors", "statement": "Over a Reader whose ReadAt honours the io.ReaderAt contract on an unchanging content and does not fail, a Body made by FromReader(AndLength) and all its copies behave as independent cursors over the content cut at the body's length (EOF may be reported together with the last byte, as io.ReaderAt allows).", "quantifier": "all contents, lengths up to the content's size, contract-abiding readers and histories over any number of copies", "why_tests_cant": "Unbounded copy trees and histories, all permitted early-EOF behaviours.", "anchors": ["body/readerat.go:readerAtBody", "body/readerat.go:readerAtCommon"]}
{"id": "C17", "title": "An I/O error on one ReaderAt-backed copy does not affect other copies", "statement": "If a Read on one copy fails with an I/O error, other copies still deliver the whole content. (False of the code: the failing Read shortens the shared length, so the other copies report io.EOF early and BytesRemaining drops. What does hold: bytes delivered are always the right bytes for their position.)", "quantifier": "all copies, all failing readers, all histories", "why_tests_cant": "Needs a fault at an arbitrary point and observations through other copies.", "anchors": ["body/readerat.go:readerAtBody.Read"]}
{"id": "C18", "title": "Seeker-backed bodies behave as independent cursors", "statement": "Over a well-behaved io.ReadSeeker with unchanging content, a Body made by FromReader(AndLength) and all its copies behave as independent cursors over the content. (False of the code when the seeker's Read may return short counts: a Read with a buffer larger than the rest of the body then reports io.EOF early and truncates the body for all copies. Proved for seekers whose Read fills the buffer while data remains.)", "quantifier": "all contents, lengths, seekers and histories over any number of copies sharing the one seeker cursor", "why_tests_cant": "Interleavings of copies over one shared OS-level cursor; short reads are rare in practice.", "anchors": ["body/seeker.go:seekerBody.Read", "body/seeker.go:seekerCommon.readAt"]}
{"id": "C19", "title": "Seeker-backed ReadAt honours the io.ReaderAt contract", "statement": "ReadAt on a Seeker-backed Body returns an error whenever it returns fewer bytes than requested. (False of the code over seekers with short reads; proved for seekers whose Read fills the buffer.)", "quantifier": "all offsets, sizes and seekers", "why_tests_cant": "Depends on all behaviours of the underlying Read.", "anchors": ["body/seeker.go:seekerBody.ReadAt"]}
{"id": "C20", "title": "BytesRemaining is never negative except for the value -1 meaning unknown", "statement": "For every Body BytesRemaining is >= 0 or exactly -1, and it is -1 only when the length is unknown. (False of the code for Seeker-backed bodies: after a failed Read on another copy it can be any negative number, and even -1 although the length is known. Holds for every other kind.)", "quantifier": "all body kinds, readers and histories", "why_tests_cant": "Requires a fault on one copy observed through another.", "anchors": ["body/seeker.go:seekerBody.BytesRemaining", "body/readerat.go:readerAtBody.BytesRemaining", "body/buffered.go:bufferedBody.BytesRemaining"]}
{"id": "C21", "title": "A failed or finished Read is sticky until Seek", "statement": "Once a Read on a ReaderAt- or Seeker-backed Body has returned an error, every later Read on it returns (0, the same error) without consulting the Reader until a Seek on that Body succeeds or it is closed; a Copy taken meanwhile inherits that state.", "quantifier": "all readers (also failing ones), all histories", "why_tests_cant": "Quantifies over all continuations.", "anchors": ["body/readerat.go:readerAtBody.Read", "body/seeker.go:seekerBody.Read"]}
{"id": "C22", "title": "FromReader picks an implementation that keeps its documented promises", "statement": "FromReader/FromReaderAndLength return a Body supporting ReadAt and Seek whenever the Reader is ReaderAt+Seeker, ReaderAt+fs.File, ReaderAt with a declared length, or Seeker; a Reader that already is a Body is returned unchanged; otherwise a streaming Body is returned.", "quantifier": "all combinations of optional interfaces, declared lengths and Stat/Seek outcomes", "why_tests_cant": "All combinations of capabilities and outcomes of external calls.", "anchors": ["body/body.go:FromReader", "body/body.go:FromReaderAndLength"]}
{"id": "C23", "title": "FromReader determines the length correctly and reports failures", "statement": "A declared length >= 0 is used as is, without calling Stat or Seek; otherwise fs.File readers are measured by Stat and other seekers by Seek to the end followed by a rewind; a failing Stat/Seek/rewind yields no Body and an error wrapping the cause; a negative reported size panics; the new Body's BytesRemaining is that length (-1 if it cannot be determined) and its first Read starts at the first byte.", "quantifier": "all readers, lengths and outcomes of external calls", "why_tests_cant": "All outcomes of the external calls.", "anchors": ["body/body.go:FromReaderAndLength"]}
{"id": "C24", "title": "FromJSON serves the JSON encoding", "statement": "The Body returned by FromJSON delivers the JSON encoding of the value. (False of the code: the encoder output is copied into a nil slice, so FromJSON always returns an empty Body, for every value.)", "quantifier": "all JSON-encodable values", "why_tests_cant": "A claim about every value.", "anchors": ["body/body.go:fromJSONImpl", "body/body.go:FromJSON"]}
{"id": "C25", "title": "FromPrettyJSON serves the indented encoding with CRLF line ends", "statement": "The Body returned by FromPrettyJSON delivers the encoder's output with each LF replaced by CRLF and nothing else changed: it is losslessly recoverable, every LF in it is preceded by CR, and its length is the encoder's length plus its number of LFs; an encoder failure panics.", "quantifier": "all encoder outputs", "why_tests_cant": "All byte strings.", "anchors": ["body/body.go:fromJSONImpl", "body/body.go:FromPrettyJSON"]}
{"id": "C26", "title": "A built Response has a status between 200 and 999", "statement": "Every Response returned by Build, after any sequence of Builder calls that did not panic, has a status between 200 and 999, namely the last one set since the previous Build, or 200 if none was set; calls with an out-of-range status panic and leave the Builder unchanged.", "quantifier": "all sequences of Builder calls, all page generators", "why_tests_cant": "All call sequences.", "anchors": ["response/builder.go:Builder.WithStatus", "response/builder.go:Builder.RedirectPage", "response/builder.go:Builder.ErrorPage", "response/builder.go:Builder.Build"]}
{"id": "C27", "title": "Build fills in Content-Type and Content-Length only when absent", "statement": "The headers of a built Response are exactly the Builder's headers plus Content-Type: application/octet-stream if Content-Type was absent, plus Content-Length: the decimal of the Body's BytesRemaining if Content-Length was absent and BytesRemaining is non-negative; nothing else is added, removed or changed.", "quantifier": "all header maps, bodies and Builder states", "why_tests_cant": "All header maps and body lengths.", "anchors": ["response/builder.go:Builder.Build"]}
{"id": "C28", "title": "Build resets the Builder", "statement": "After Build the Builder has no status, headers, body or error and keeps only its PageGenerator, so the next Response it builds is determined by the later calls alone; Build without a body panics and changes nothing.", "quantifier": "all Builder histories", "why_tests_cant": "Quantifies over everything built before.", "anchors": ["response/builder.go:Builder.Build"]}
{"id": "C29", "title": "Header maps given to or copied from a Builder are not shared", "statement": "After WithHeaders(m) or Builder.Copy, no mutation of the original map or of the value slices in it changes what the Builder (or the copy) holds, and vice versa; the values seen are those at the time of the call.", "quantifier": "all header maps and all later mutation sequences", "why_tests_cant": "Aliasing must be absent for every later mutation of either side.", "anchors": ["response/util.go:copyHeaders", "response/util.go:copyStrings", "response/builder.go:Builder.WithHeaders", "response/builder.go:Builder.Copy"]}
{"id": "C30", "title": "A built Response is isolated from the Builder's later use", "statement": "After Build no later call on the Builder changes the Response. (The map returned earlier by Headers() is handed over, not copied: a caller who kept it can still change the Response; Response.Copy also shares the map.)", "quantifier": "all later Builder calls", "why_tests_cant": "All continuations.", "anchors": ["response/builder.go:Builder.Headers", "response/builder.go:Builder.Build", "response/response.go:Response.Copy"]}
{"id": "C31", "title": "WithHeader / WithoutHeader / WithContentX edit one canonical header", "statement": "Header edits affect only the canonical form of the given name: set replaces all its values by one, append adds one value at the end, remove deletes it; all other headers are unchanged; names that are valid tokens and differ only in letter case denote the same header, and any other name denotes itself; canonicalisation is idempotent; an empty name panics.", "quantifier": "all names, values and header maps", "why_tests_cant": "All strings.", "anchors": ["response/builder.go:Builder.WithHeader", "response/builder.go:Builder.WithoutHeader", "response/builder.go:Builder.WithETag", "response/builder.go:Builder.WithContentLanguage"]}
{"id": "C32", "title": "ETag and Digest values are unambiguous", "statement": "Different (tag, strength) pairs given to WithETag produce different header values; the value WithDigest adds determines the digest bytes (its base64 part decodes to them) and the algorithm; repeated WithDigest calls accumulate in order.", "quantifier": "all tags, algorithms and digests of any length", "why_tests_cant": "All strings and byte strings.", "anchors": ["response/builder.go:Builder.WithETag", "response/builder.go:Builder.WithDigest"]}
{"id": "C33", "title": "Redirect pages cannot be broken by the location and have a correct Content-Length", "statement": "For every location string, the default redirect page is the fixed HTML with the HTML-escaped location in both places: the escaped text contains none of < > \" ' and no & that does not start one of the five entities, and determines the location; Location carries the location (surrounding white space removed) verbatim; Content-Length is the body's exact length. Error pages likewise have the exact Content-Length.", "quantifier": "all location strings and status codes", "why_tests_cant": "All strings; injection safety is universal.", "anchors": ["response/pagegen.go:defaultPageGenerator.GenerateRedirectPage", "response/pagegen.go:defaultPageGenerator.GenerateErrorPage"]}
{"id": "C34", "title": "Serve sends status, headers and the whole Body, in that order", "statement": "Serving a Response with no push failures calls WriteHeader exactly once with its status, after having set exactly its headers other than Push, and then writes exactly the bytes the Body delivers, in order; it returns nil iff the whole body was delivered and accepted and Close succeeded.", "quantifier": "all responses, bodies and ResponseWriters", "why_tests_cant": "All bodies, chunkings and writer behaviours.", "anchors": ["response/response.go:Response.Serve"]}
{"id": "C35", "title": "Serve closes the Body", "statement": "Serve closes the Response's Body exactly once whenever it returns. (False of the code when a push fails with an error other than ErrNotSupported: Serve then returns without closing the Body. True otherwise.)", "quantifier": "all responses, writers and failures", "why_tests_cant": "All failure points.", "anchors": ["response/response.go:Response.Serve"]}
{"id": "C36", "title": "Push headers are pushed and never sent", "statement": "When the ResponseWriter supports push, Serve pushes the URLs listed under Push in order, ignoring ErrNotSupported and stopping at the first other error before anything is sent; the Push header itself is never sent to the client.", "quantifier": "all header maps and pusher behaviours", "why_tests_cant": "All lists and failure positions.", "anchors": ["response/response.go:Response.Serve"]}
{"id": "C37", "title": "A Writer forwards at most one status and always before any body byte", "statement": "For every sequence of calls on a Writer, the wrapped ResponseWriter receives WriteHeader at most once, and before any Write, ReadFrom or Flush; Status returns that status or 0; a second explicit WriteHeader is rejected, is not forwarded and sets SawError; statuses outside 100..999 panic without effect.", "quantifier": "all call sequences, all wrapped writers", "why_tests_cant": "All call sequences.", "anchors": ["response/writer.go:basicWriter", "response/writer.go:flushWriter", "response/writer.go:fancyWriter"]}
{"id": "C38", "title": "BytesWritten counts exactly the bytes the wrapped writer accepted", "statement": "For every sequence of calls BytesWritten is the sum of the counts returned by the wrapped writer's Write and ReadFrom; for HEAD requests and after status 204 no body byte is forwarded, Write reports full success and BytesWritten does not grow.", "quantifier": "all call sequences, all wrapped writers", "why_tests_cant": "All call sequences and partial-write behaviours.", "anchors": ["response/writer.go:basicWriter.Write", "response/writer.go:fancyWriter.ReadFrom"]}
{"id": "C39", "title": "SawError reports every failed write", "statement": "SawError is true iff some write to the client failed or WriteHeader was called twice. (False of the code: an error from ReadFrom is not recorded. True for Write.)", "quantifier": "all call sequences, all wrapped writers", "why_tests_cant": "All call sequences.", "anchors": ["response/writer.go:basicWriter.SawError", "response/writer.go:fancyWriter.ReadFrom"]}
{"id": "C40", "title": "NewWriter wraps once and keeps the wrapped writer's capabilities", "statement": "NewWriter on something that already is a Writer returns it unchanged; otherwise the result supports Flush iff the wrapped writer does, and CloseNotify/Hijack/ReadFrom only if the wrapped writer supports all of them and Flush, so that no capability call can hit a missing interface. (Hijack/CloseNotify/ReadFrom are lost when the wrapped writer lacks any one of the four.)", "quantifier": "all capability combinations of the wrapped writer", "why_tests_cant": "All combinations, and that no type assertion can fail later.", "anchors": ["response/writer.go:NewWriter"]}
{"id": "C41", "title": "Every request handled by Adaptor gets a status and is counted once", "statement": "For every handler behaviour (returning any Response, panicking at any point, failing to serve) and every client writer, Adaptor.ServeHTTP returns normally if OnPanic and the client writer do, the client has received exactly one status line, http_requests_total is incremented exactly once, and the send-bytes metric grows by exactly the bytes written.", "quantifier": "all handlers, responses and writers", "why_tests_cant": "All handler outcomes and panic points.", "anchors": ["handler/adaptor.go:Adaptor.ServeHTTP"]}
{"id": "C42", "title": "Panics are counted and reported exactly once", "statement": "PromPanicsTotal is incremented and OnPanic called exactly once iff the handler panicked with a non-nil value or Serve returned an error; OnPanic receives the error itself, or a PanicError wrapping a non-error value; never otherwise. (Consequence found: every Response with an empty Body is counted as a panic, because of C08.)", "quantifier": "all handler outcomes", "why_tests_cant": "All outcomes.", "anchors": ["handler/adaptor.go:Adaptor.ServeHTTP", "handler/onpanic.go"]}
{"id": "C43", "title": "Requests are counted under the status the client received", "statement": "The code label used for the metrics is the status sent to the client. (False of the code: the label is taken before the fallback 500 is written, so a handler that panics before anything was sent is counted under code 0. True otherwise.)", "quantifier": "all handler outcomes", "why_tests_cant": "All outcomes.", "anchors": ["handler/adaptor.go:Adaptor.ServeHTTP"]}
{"id": "C44", "title": "Concurrent use of bodies is linearizable", "statement": "When any number of goroutines call methods on the copies of one Body family concurrently, under every schedule the results are those of some sequential execution of the same calls that respects each goroutine's order, and the shared state is only accessed by the goroutine holding the family's lock. (The latter is false for Seeker-backed BytesRemaining, which reads the shared length without the lock.)", "quantifier": "all numbers of goroutines, programs and schedules", "why_tests_cant": "All interleavings.", "anchors": ["body/buffered.go", "body/readerat.go", "body/seeker.go"]}
{"id": "C45", "title": "Concurrent use of bodies never deadlocks", "statement": "Under every schedule, as long as some call has not returned and the Reader's own calls return, some goroutine can take a step; locks are always acquired Body first, family second, and released on every path, including panics.", "quantifier": "all numbers of goroutines, programs and schedules", "why_tests_cant": "All interleavings.", "anchors": ["body/buffered.go", "body/readerat.go", "body/seeker.go"]}
{"id": "C46", "title": "Results do not depend on Go's map iteration order", "statement": "Neither the bookkeeping of stream-backed bodies (which ranges over the set of copies) nor Serve and the header copying (which range over header maps) depends on the order in which Go iterates over the map.", "quantifier": "all iteration orders", "why_tests_cant": "Go randomises the order; tests see a sample.", "anchors": ["body/buffered.go:bufferedCommon.updateStart", "response/response.go:Response.Serve", "response/util.go:copyHeaders"]}
{"id": "C47", "title": "ReaderAt- and Seeker-backed bodies never panic on their own account", "statement": "For every Reader whatsoever and every declared length, a call on a ReaderAt- or Seeker-backed Body or on any of its copies panics only if the Reader's own last answer during that call was a panic, or an impossible byte count (negative, or more than was asked for); no slice bound, nil dereference or internal assertion is ever tripped, also after the last copy has been closed.", "quantifier": "all readers (also misbehaving ones), declared lengths and histories over any number of copies", "why_tests_cant": "Needs all readers and all histories.", "anchors": ["body/readerat.go:readerAtBody", "body/readerat.go:readerAtCommon.readAt", "body/seeker.go:seekerBody", "body/seeker.go:seekerCommon.readAt"]}
{"id": "C48", "title": "A built Response never declares a wrong Content-Length of its own making", "statement": "If the caller never sets Content-Length, the Content-Length of a built Response is the number of bytes remaining in its Body when it was built, or absent if that is unknown. (False of the code: after ErrorPage or RedirectPage followed by WithBody the length of the generated page is kept.)", "quantifier": "all sequences of Builder calls and all bodies", "why_tests_cant": "All call histories.", "anchors": ["response/builder.go:Builder.Build", "response/builder.go:Builder.WithBody", "response/pagegen.go:DefaultPageGenerator"]}
{"id": "C49", "title": "A Body is closed even if closing its Reader panics", "statement": "If the Close of the underlying Reader panics, the panic is passed on by the last Close of a Body, and that Body is closed none the less: all later calls on it answer as for a closed Body and none panics. (False of stream-backed bodies: the code clears the shared fields before it closes the Reader and marks the Body closed only afterwards.)", "quantifier": "all readers and histories", "why_tests_cant": "All readers, all histories before the panic.", "anchors": ["body/buffered.go:bufferedCommon.unref", "body/buffered.go:bufferedBody.Close", "body/readerat.go:readerAtBody.Close", "body/seeker.go:seekerBody.Close"]}
{"id": "C50", "title": "Serving through a Writer is transparent, and mute when it must be", "statement": "Serving a Response through a new Writer has the same effect on the Body and on the wrapped ResponseWriter, and the same outcome, as serving it to the wrapped ResponseWriter directly, unless the request is HEAD or the status 204; in those cases the client gets exactly the pushes, the headers and the status, no body byte is sent or counted, and yet the Body is read to its end and closed, and an error from reading or closing it is returned.", "quantifier": "all ResponseWriters (that return no negative counts), bodies, header maps and status codes from 100 to 999", "why_tests_cant": "Needs all ResponseWriters, including those whose ReadFrom interleaves reading with other work.", "anchors": ["response/writer.go:fancyWriter.ReadFrom", "response/writer.go:basicWriter.Write", "response/writer.go:NewWriter", "response/response.go:Response.Serve"]}
{"id": "C51", "title": "Descriptions of Responses and errors are unambiguous", "statement": "The String of a Response can be read back: it determines the status code and the number of bytes remaining in the Body (or that it is unknown), and codes up to 999 are written with three digits. Different errors made by package body (including wrapped ones) never have the same text nor the same GoString. The text of a PanicError says the type of the value, and which value it is for nil, booleans, integers and strings.", "quantifier": "all status codes, all lengths, all offsets and whence values, all depths of wrapping", "why_tests_cant": "All integers, including negative and very large ones.", "anchors": ["response/response.go:Response.String", "body/errors.go:UnknownWhenceSeekError.Error", "body/errors.go:NegativeStartOffsetSeekError.Error", "body/errors.go:NegativeComputedOffsetSeekError.Error", "body/body.go:FromReader", "handler/onpanic.go:PanicError.Error"]}
{"id": "C52", "title": "A MockReader follows its script and accepts nothing else", "statement": "The i-th call on a MockReader returns the i-th scripted answer if it is the i-th scripted call (same method, offset, whence, mark and buffer length), and otherwise panics with an ExpectationFailedError that names the place, the expectation and the call; every call after the end of the script panics too. So no call panics exactly if the calls are the script or its beginning. Counts that a Reader must not return cannot be scripted. A nil MockReader ignores marks and rejects everything else.", "quantifier": "all scripts, all sequences of calls", "why_tests_cant": "Holds for all scripts; the tests only use scripts that are followed.", "anchors": ["internal/mockreader/mockreader.go:MockReader.next", "internal/mockreader/mockreader.go:MockReader.Read", "internal/mockreader/mockreader.go:MockReader.ReadAt", "internal/mockreader/mockreader.go:MockReader.Mark", "internal/mockreader/mockreader.go:Expectation.Matches", "internal/mockreader/mockreader.go:ExpectRead", "internal/mockreader/mockreader.go:ExpectReadAt"]}
{"id": "C53", "title": "A MockReader can stand in for a Reader", "statement": "Take any Reader that has a Close method, build a Body from it and use the Body and its copies in any way, and write down the calls that are made on the Reader. If the answers can be scripted (no panics, no impossible counts), then the same use of a Body built from a MockReader with this script (in the wrapper with the same optional methods) gives the same observations, and uses up the script. Writing down the calls does not change anything either.", "quantifier": "all Readers, lengths, histories", "why_tests_cant": "Quantifies over all Readers and histories.", "anchors": ["internal/mockreader/wrapper000.go:Wrapper000.Read", "internal/mockreader/wrapper111.go:Wrapper111.Stat", "internal/mockreader/mockreader.go:New", "body/body.go:FromReaderAndLength", "body/buffered.go:bufferedBody.Read", "body/seeker.go:seekerBody.Read", "body/readerat.go:readerAtBody.Read"]}
{"id": "C54", "title": "Bodies touch no memory but what they deliver", "statement": "A call on a Body changes no memory of its caller except the slice passed to Read or ReadAt, and in it only the bytes that the returned count covers (bodies over a ReaderAt or Seeker lend the slice to the Reader, so a Reader that uses it as scratch space may also change what follows in the slice, but nothing outside it). No Body keeps a slice passed to Read or ReadAt. Whatever the client does with its memory between calls, and however the Reader uses the slices lent to it, has no effect on what Bodies return; the exception is the slice given to FromBytes, which is not copied: Bodies return what it contains at the time of the call, WriteTo hands out this very slice, and reading a Body into its own data is well defined.", "quantifier": "all memories, slices (overlapping or not), Readers, uses of scratch space, histories", "why_tests_cant": "Aliasing bugs need particular overlaps of buffers and particular behaviour of Readers and clients.", "anchors": ["body/buffered.go:bufferedBody.Read", "body/buffered.go:bufferedCommon.fill", "body/bytes.go:bytesBody.Read", "body/bytes.go:bytesBody.ReadAt", "body/bytes.go:bytesBody.WriteTo", "body/readerat.go:readerAtBody.Read", "body/readerat.go:readerAtBody.ReadAt", "body/seeker.go:seekerBody.Read", "body/seeker.go:seekerBody.ReadAt", "body/body.go:FromBytes"]}
{"id": "C55", "title": "A Response that a handler returns reaches the client completely", "statement": "If the client takes what it is given, and the Body of the Response delivers its bytes, then ServeHTTP of the Adaptor returns normally; the client was sent the pushes, then exactly the headers of the Response (but Push), then exactly one status, the one of the Response, and then exactly the bytes of the Body (none for HEAD requests and status 204), all of them; the metrics count one request with that status and that number of bytes, and no panic. This holds for Bodies made by FromBytes and FromString of at least one byte (not for empty ones, see C08), over ReaderAts, over Seekers and over streams. If the Response was built by a Builder without a Content-Length of its own, the Content-Length sent is the number of bytes of the Body. Error and redirect pages made by the default PageGenerator arrive with their code, text, Content-Type and Content-Length.", "quantifier": "all Responses with a legal status, all Bodies that deliver, all clients that take everything (with or without ReadFrom, Push), all histories of the Builder", "why_tests_cant": "A liveness statement across all the layers; the tests look at single layers with one client.", "anchors": ["response/response.go:Response.Serve", "response/writer.go:basicWriter.Write", "response/writer.go:fancyWriter.ReadFrom", "handler/adaptor.go:Adaptor.ServeHTTP", "response/builder.go:Builder.Build", "response/builder.go:Builder.ErrorPage", "response/builder.go:Builder.RedirectPage", "body/bytes.go:bytesBody.WriteTo"]}
{"id": "C56", "title": "Copies are served independently of each other", "statement": "Copy a Body (or a Response or a Builder that has it), serve one of the two to any client (the client may refuse, fail or panic at any point, or stop reading), and then serve the other one to a client that takes everything: this client gets exactly the bytes that the Body would have delivered at the time of the copy, with the status and the headers of its Response. This holds in both directions, also for Bodies over streams that can be read only once. The copy of a Response or a Builder whose Body is closed has a Body that is closed too, and is not an error.", "quantifier": "all Bodies over Readers that keep their contracts, all positions at which they are copied, all clients", "why_tests_cant": "Quantifies over all ways in which a client can fail.", "anchors": ["response/response.go:Response.Copy", "response/response.go:Response.Serve", "response/builder.go:Builder.Copy", "response/util.go:copyBody", "body/bytes.go:bytesBody.Copy", "body/buffered.go:bufferedBody.Copy", "body/readerat.go:readerAtBody.Copy", "body/seeker.go:seekerBody.Copy"]}
{"id": "C57", "title": "Bodies made from the same positional Reader do not disturb each other", "statement": "Pass one Reader (an io.ReaderAt, or an io.Seeker whose Read fills the buffer) to FromReaderAndLength any number of times, at any time and with any lengths up to its own (or without), copy the Bodies and use them in any order, and use the Reader directly in between (leaving it in working order): as long as nobody has closed the Reader, each family of Bodies behaves as independent cursors over the beginning of the Reader's content, as if it were alone.", "quantifier": "all Readers that keep their contracts, all numbers of families, all interleavings of calls, all direct uses of the Reader", "why_tests_cant": "Interference appears only in particular interleavings of several families with direct uses of the Reader.", "anchors": ["body/body.go:FromReaderAndLength", "body/readerat.go:readerAtBody.Read", "body/readerat.go:readerAtBody.ReadAt", "body/seeker.go:seekerBody.Read", "body/seeker.go:seekerBody.ReadAt"]}
{"id": "C58", "title": "A Body can be the Reader behind another Body", "statement": "A Body made from bytes, a ReaderAt or a Seeker, passed to FromReaderAndLength, is a Reader with the whole content of the Body, wherever the Body stands, and stays so whatever is done to it and to its copies, except closing it; the new Body serves this content from its first byte, up to the given length. Every Body, in particular one over a stream, is as a plain Reader a stream of exactly the bytes it has not delivered yet, and never returns (0, nil) for a non-empty buffer; a new Body over it serves these. The new Bodies are of this kind again, so there can be any number of layers. Closing the last of the new Bodies closes the inner Body, and returns what this returns; the copies of the inner Body are not affected.", "quantifier": "all Bodies over Readers that keep their contracts, all histories of the inner family, all lengths, any number of layers", "why_tests_cant": "Quantifies over the histories of two or more layers of families.", "anchors": ["body/body.go:FromReaderAndLength", "body/bytes.go:bytesBody.ReadAt", "body/bytes.go:bytesBody.Seek", "body/buffered.go:bufferedBody.Read", "body/readerat.go:readerAtBody.ReadAt", "body/seeker.go:seekerBody.Seek"]}
{"id": "C59", "title": "The texts of scripted calls are unambiguous", "statement": "String of an expectation is a call from which method, mark, buffer length, offset and whence can be read back (marks are arbitrary strings of bytes, in quotes as strconv.Quote writes them), followed, for a line of a script, by ' => (' and the scripted results; GoString shows in addition the bytes that are read. The message of an ExpectationFailedError has the number of the line, the line (or 'Nothing' after the end of the script) and the call, and the two are never the same text. The names of the operations are different.", "quantifier": "all scripts, all calls, all marks (also if not UTF-8), all printability tables and texts of errors and FileInfos", "why_tests_cant": "Ambiguity shows only for particular pairs of values, such as marks with quotes, backslashes or invalid UTF-8.", "anchors": ["internal/mockreader/mockreader.go:Expectation.StringTo", "internal/mockreader/mockreader.go:Expectation.GoStringTo", "internal/mockreader/mockreader.go:Expectation.String", "internal/mockreader/mockreader.go:Expectation.GoString", "internal/mockreader/util.go:formatBytesTo", "internal/mockreader/util.go:whenceString", "internal/mockreader/op.go:Op.String", "internal/mockreader/errors.go:ExpectationFailedError.Error"]}
{"id": "C60", "title": "Serve and Writers add no panics of their own, and always return", "statement": "If a Response has a status between 100 and 999, and the Body and the http.ResponseWriter keep the contracts of their interfaces (counts are in range; the Body ends), then Serve panics only with the value of a panic of the Body or of the ResponseWriter, and fails to return only if one of their calls does. The same holds if a Writer made by NewWriter is in between: over a ResponseWriter it is itself a ResponseWriter of that kind, and calls WriteHeader at most once, with a status in range. The Bodies of the package, over Readers that keep their contracts, do not panic and end. A request handled by the Adaptor, whatever status the Response has and whatever the handler, the Body and the ResponseWriter panic with, ends with a panic only if OnPanic or the WriteHeader of the ResponseWriter panics, and ends if they all do.", "quantifier": "all Responses, all ResponseWriters (also those that panic or block, with or without the optional interfaces, and whose ReadFrom interleaves reads and writes as it likes), all Bodies, all sizes", "why_tests_cant": "Termination and absence of panics are claims about all behaviours of two unknown partners.", "anchors": ["response/response.go:Response.Serve", "response/writer.go:NewWriter", "handler/adaptor.go:Adaptor.ServeHTTP", "response/writer.go:basicWriter.WriteHeader", "response/writer.go:basicWriter.Write", "response/writer.go:fancyWriter.ReadFrom", "response/writer.go:flushWriter.Flush", "body/bytes.go:bytesBody.WriteTo", "body/empty.go:emptyBody.WriteTo"]}
{"id": "C61", "title": "Bodies made from JSON own their memory; the buffer pool loses nothing", "statement": "Let any number of calls of FromJSON and FromPrettyJSON overlap in any way, with each other and with other users of the shared buffer pool. No two users ever have the same buffer. A call that ends, also with a panic of the encoder, has put back the one buffer it held, exactly once, and no buffer is lost or invented. The bytes of a Body made by FromPrettyJSON are the encoding of its own value (with CRLF line ends), in memory of exactly the right size that is part of no buffer and of no other Body: whatever is written to the buffers later does not show in the Body or its copies. A call needs a fixed number of steps, whatever the others do.", "quantifier": "all numbers of calls and all interleavings of their steps, all behaviours of the encoders, all choices of the pool, all growth policies of append, all histories of Body operations afterwards", "why_tests_cant": "Aliasing shows only when a particular later user writes to the recycled buffer, and leaks only when the encoder fails or panics.", "anchors": ["body/body.go:FromJSON", "body/body.go:FromPrettyJSON", "body/body.go:fromJSONImpl", "body/body.go:FromBytes", "body/bytes.go:bytesBody.Read"]}
{"id": "C62", "title": "What Bodies over failing sources do: their common content only becomes shorter", "statement": "Let the source behind Bodies (an io.ReaderAt or io.Seeker) fail at any time: return errors, deliver less than asked for, panic, return impossible counts. The Bodies of the family (all copies) are cursors over one content, which stays as it is until a Read on one of them returns an error; it ends then, for all of them, where that Body stands. From then on no Read, ReadAt, Seek or BytesRemaining on any of them shows anything beyond that position. ReadAt, Seek and panics change nothing for the others. Errors of the source come out of the call during which they occurred, io.EOF is added only at the end, and the Body that got an error in Read keeps returning it until a successful Seek. As long as Reads returned errors only at the end, BytesRemaining is exact. If the source returns fewer bytes than asked for only with an error, so do the Bodies.", "quantifier": "all sources over an unchanging content, whatever and whenever they fail, all lengths, all histories of calls on all copies", "why_tests_cant": "Quantifies over all patterns of failures in all histories of a family of copies.", "anchors": ["body/readerat.go:readerAtBody.Read", "body/readerat.go:readerAtBody.ReadAt", "body/readerat.go:readerAtBody.Seek", "body/readerat.go:readerAtBody.BytesRemaining", "body/readerat.go:readerAtBody.Copy", "body/readerat.go:readerAtBody.Close", "body/seeker.go:seekerBody.Read", "body/seeker.go:seekerBody.ReadAt", "body/seeker.go:seekerBody.Seek", "body/seeker.go:seekerBody.BytesRemaining"]}
{"id": "C63", "title": "The metrics of overlapping requests add up", "statement": "Let any number of requests be handled at the same time, in any interleaving. At every time the metrics show exactly what the goroutines have done to them so far: nothing is lost or counted twice, and no counter, sum or bucket ever becomes smaller. When all requests have been dealt with, the total of the request counters, the counts of the histograms and the number of requests are the same; the sent bytes, in the counters, the sum and each bucket of the histogram, are those accepted by the clients' ResponseWriters; the counters of each status other than 500 are those of the clients that received this status, and the labels '500' and '0' together those of the clients that received 500; and the panics counted are the calls of OnPanic. In between, the histograms are never ahead of the counters and are behind by at most the number of requests not yet finished, and the same holds for OnPanic and the panics counter. The received-bytes metrics show only zeros.", "quantifier": "all numbers of requests, all interleavings, all handlers, Bodies, ResponseWriters and OnPanic functions, all times of a scrape", "why_tests_cant": "Quantifies over all interleavings of goroutines and all moments of observation.", "anchors": ["handler/adaptor.go:Adaptor.ServeHTTP", "handler/onpanic.go:DefaultOnPanic", "response/writer.go:basicWriter.BytesWritten", "response/writer.go:basicWriter.Status"]}
{"id": "C64", "title": "Over net/http a Response arrives intact exactly if it fits its status and Content-Length", "statement": "Let the Adaptor answer a request over the ResponseWriter of the net/http server (HTTP/1.1 or HTTP/2), and let the handler return a Response with a status from 200 to 999 whose Body delivers its bytes. The status and all headers but Push are on the wire. The response arrives intact - the whole body (nothing for HEAD requests and status 204) in a message the client can read to its end, and no panic counted - exactly if the request is HEAD, or the status is 204, or it is 304 and the Body is empty, or it is none of these and the Content-Length header, if there is one that is a number, is the length of the body. Responses made by a Builder without a Content-Length header of its own, from a Body that knows its length, arrive intact unless the status is 304 and the Body is not empty. Otherwise: a 304 with a non-empty Body is counted and reported as a panic (http.ErrBodyNotAllowed), though the client gets the right answer; with a Content-Length that is too small a part of the body is sent and http.ErrContentLength is counted and reported as a panic; with one that is too large the whole body is sent and nothing is reported, but the message is incomplete. The bytes counted as sent are those on the wire.", "quantifier": "all Bodies that deliver their bytes, all contents, header maps, statuses from 200 to 999, both protocols, all OnPanic functions, HEAD and other requests", "why_tests_cant": "Quantifies over all bodies and header maps; tests with a recording ResponseWriter do not have the restrictions of net/http.", "anchors": ["response/response.go:Response.Serve", "response/writer.go:basicWriter.Write", "response/writer.go:basicWriter.WriteHeader", "response/writer.go:fancyWriter.ReadFrom", "handler/adaptor.go:Adaptor.ServeHTTP", "response/builder.go:Builder.Build"]}
{"id": "C65", "title": "Copies of one Response can be served at the same time", "statement": "Let a Response and any number of copies of it be served by as many goroutines, each to its own http.ResponseWriter, interleaved in any way with each other and with calls of other Bodies of the family. A goroutine whose ResponseWriter takes everything sends it the status, the headers and the whole content of the Body, in order, and Serve returns nil, whatever happens to the others: their ResponseWriters may fail, panic, block, or answer nonsense, and the others may close their Bodies at any time. It needs no more than five turns plus one for each byte, so no copy can hold up another. This holds for Bodies in memory, over an io.ReaderAt, over an io.ReadSeeker with its one shared position, and over a stream that can be read only once; and also with the Writer of the Adaptor in between, whose Status and BytesWritten are right. For Bodies in memory, Serve does among others exactly what it would do alone, whatever its own ResponseWriter does.", "quantifier": "all numbers of copies, all interleavings of their calls of the Body, all contents, all behaviours of the other ResponseWriters (those with ReadFrom use buffers up to some size K of at least 32 KiB)", "why_tests_cant": "Quantifies over all interleavings of goroutines that share one source, and over what the other clients do.", "anchors": ["response/response.go:Response.Serve", "response/response.go:Response.Copy", "body/bytes.go:bytesBody.Copy", "body/readerat.go:readerAtBody.Copy", "body/readerat.go:readerAtBody.Read", "body/readerat.go:readerAtBody.Close", "body/seeker.go:seekerBody.Copy", "body/seeker.go:seekerBody.Read", "body/buffered.go:bufferedBody.Copy", "body/buffered.go:bufferedBody.Read", "body/buffered.go:bufferedBody.Close", "response/writer.go:basicWriter.BytesWritten", "response/writer.go:basicWriter.Status"]}
{"id": "C66", "title": "A client can tell when the source of a response failed", "statement": "Let the Reader of a Body fail in the middle, with an error other than io.EOF, while a Response with it is being served over net/http by the Adaptor. Then the bytes delivered before are on the wire, exactly these are counted, and the error is counted and reported to OnPanic exactly once, also for HEAD. And the client can tell that the response is not whole: the message ends before its declared length, or the connection is cut.", "quantifier": "all Bodies over streams, io.ReaderAts and io.ReadSeekers that fail after any content, all header maps, statuses from 200 to 999, both protocols, all OnPanic functions, HEAD and other requests, Responses made by Builders", "why_tests_cant": "Quantifies over all contents and points of failure; tests with sources that do not fail, or with a recording ResponseWriter, do not see what a client sees.", "anchors": ["response/response.go:Response.Serve", "response/builder.go:Builder.Build", "handler/adaptor.go:Adaptor.ServeHTTP", "handler/onpanic.go:DefaultOnPanic", "body/buffered.go:bufferedBody.Read", "body/readerat.go:readerAtBody.Read", "body/seeker.go:seekerBody.Read", "response/writer.go:fancyWriter.ReadFrom"]}
{"id": "C67", "title": "Goroutines using one MockReader take turns", "statement": "When any number of goroutines call the methods of one MockReader at the same time, every call takes effect at one instant between its beginning and its return, the i-th call to take effect is compared with the i-th line of the script, and no line is used twice or skipped. The index is never accessed without the mutex when another goroutine is about to write it (of any two accesses the earlier one happens before the later one, in the sense of the Go memory model), there is no deadlock, and every call returns.", "quantifier": "all scripts, all numbers of goroutines, all calls, all interleavings of their steps", "why_tests_cant": "Quantifies over all interleavings; a lost update of the index would show only under unlucky timing.", "anchors": ["internal/mockreader/mockreader.go:MockReader.next", "internal/mockreader/mockreader.go:MockReader.Read", "internal/mockreader/mockreader.go:MockReader.Close"]}
{"id": "C68", "title": "What is done to the headers of one ResponseWriter does not show in another's", "statement": "When Responses and their copies are served to any number of ResponseWriters, and values are added, set and deleted in the headers of these with the methods of http.Header, each ResponseWriter has at each time the headers it would have if it were the only one, and the headers of the Responses do not change.", "quantifier": "all Responses and ResponseWriters, all sequences of Serve, Add, Set and Del in any order, all amounts of spare capacity that append may allocate", "why_tests_cant": "Quantifies over all capacities and orders; the values overwrite each other only if a slice happens to have spare capacity, and two requests are served the same Response.", "anchors": ["response/response.go:Response.Serve", "response/response.go:Response.Copy", "response/builder.go:Builder.WithHeader", "response/builder.go:Builder.WithDigest", "response/util.go:copyHeaders"]}
{"id": "C69", "title": "Each request is in the right bucket, and the totals are right up to rounding", "statement": "When any number of requests have been handled, the latency histogram has in the buckets up to each of its bounds exactly the requests that took at most that many milliseconds, although times and bounds are rounded to float64; likewise the histogram of bytes. Numbers of requests and of bytes are exact up to 2^53. The totals of the latencies, in seconds, have a relative error of at most 2^-52 for each request, and never become smaller.", "quantifier": "all requests, all handlers, all times, all interleavings of the goroutines", "why_tests_cant": "Quantifies over all times in nanoseconds and all orders of additions; a test cannot try the 2^63 durations, and the errors of float64 show only in particular ones.", "anchors": ["handler/adaptor.go:Adaptor.ServeHTTP", "handler/adaptor.go:PromLatencyHist", "handler/adaptor.go:PromLatencyTotal", "handler/adaptor.go:PromSendBytesHist", "handler/adaptor.go:PromSendBytesTotal"]}
{"id": "C70", "title": "The package can be initialised unless one of its metrics' names is taken", "statement": "The initialisation of the handler package registers its eight metrics with the default registry. It panics exactly if the program has registered a metric with one of these names before, whatever the labels and the help text of that metric. The names shown by a scrape are distinct.", "quantifier": "all sets of metrics registered before", "why_tests_cant": "Quantifies over all programs that the package may be linked into; a test knows only one registry.", "anchors": ["handler/adaptor.go:PromPanicsTotal", "handler/adaptor.go:PromRequestsTotal", "handler/adaptor.go:PromLatencyTotal", "handler/adaptor.go:PromRecvBytesTotal", "handler/adaptor.go:PromSendBytesTotal", "handler/adaptor.go:PromLatencyHist", "handler/adaptor.go:PromRecvBytesHist", "handler/adaptor.go:PromSendBytesHist"]}
{"id": "C71", "title": "No arithmetic overflows, also where int has 32 bits", "statement": "The sums, differences and conversions of int, int64 and int32 values in the methods of the Bodies never wrap around: every Body behaves as if integers were unbounded, on platforms whose int has 32 or 64 bits, as long as there are fewer than 2^31 Bodies over one Reader, and the bytes of a stream that are held back, together with the buffer and one block, fit into one slice. The count of bytes that a Writer keeps is right modulo 2^64, and the metrics are right, as long as fewer than 2^63 bytes were accepted.", "quantifier": "all slices, Readers, ResponseWriters, lengths below 2^63, and sequences of calls within these bounds, both widths of int", "why_tests_cant": "Quantifies over all lengths and offsets up to 2^63; tests on a 64-bit machine with small contents never come near a limit.", "anchors": ["body/bytes.go:bytesBody.Read", "body/bytes.go:bytesBody.Seek", "body/bytes.go:bytesBody.ReadAt", "body/bytes.go:bytesBody.WriteTo", "body/bytes.go:bytesBody.BytesRemaining", "body/readerat.go:readerAtBody.Read", "body/readerat.go:readerAtBody.ReadAt", "body/readerat.go:readerAtCommon.ref", "body/readerat.go:readerAtCommon.unref", "body/seeker.go:seekerBody.Read", "body/seeker.go:seekerBody.BytesRemaining", "body/buffered.go:bufferedBody.Read", "body/buffered.go:bufferedCommon.updateStart", "body/buffered.go:bufferedCommon.advance", "body/buffered.go:bufferedCommon.ref", "body/buffered.go:bufferedCommon.unref"]}
{"id": "C72", "title": "The standard library can use Bodies", "statement": "io.ReadAll returns the rest of a Body's content and the error if it is not io.EOF; io.ReadFull and io.ReadAtLeast return the next bytes and leave the rest, or return all that there is with the error that they document; io.LimitReader, io.MultiReader, io.SectionReader and io.CopyN deliver exactly the bytes that they should; http.ServeContent sends the range that is asked for, or everything, wherever the Body stood. Of a closed Body they return nothing but the error that it is closed, and http.ServeContent answers 500. The rest holds for every open Body of every kind, after any calls of it and its copies; over an io.ReadSeeker it holds if its Read fills the buffer, and need not hold otherwise: io.ReadAll may then return too little and no error.", "quantifier": "all contents, Readers that keep to the documented contract, histories of calls, buffer sizes, ranges, and strategies of append", "why_tests_cant": "Quantifies over all states of a family of Bodies and all ways in which a Reader may deliver its bytes; tests use a few contents and Readers that fill the buffer.", "anchors": ["body/bytes.go:bytesBody.Read", "body/bytes.go:bytesBody.Seek", "body/bytes.go:bytesBody.ReadAt", "body/readerat.go:readerAtBody.Read", "body/readerat.go:readerAtBody.Seek", "body/readerat.go:readerAtBody.ReadAt", "body/seeker.go:seekerBody.Read", "body/seeker.go:seekerBody.Seek", "body/seeker.go:seekerBody.ReadAt", "body/buffered.go:bufferedBody.Read"]}
{"id": "C73", "title": "A goroutine that a handler ends is answered, counted and ended", "statement": "If the handler, or the Body or the client's ResponseWriter while the Response is served, ends the goroutine with runtime.Goexit, then the client has been sent exactly one status line, before everything else (500 if nothing was sent before); the request is counted once, with the bytes that the client's ResponseWriter accepted, and not as a panic; OnPanic is not called; and the goroutine does end, so that the client of net/http can tell. ServeHTTP ends a goroutine in no other case.", "quantifier": "all handlers, Responses, Bodies, ResponseWriters whose WriteHeader(500) returns, and OnPanic functions", "why_tests_cant": "Quantifies over all Bodies and ResponseWriters and all points at which they may end the goroutine; tests do not call runtime.Goexit at all.", "anchors": ["handler/adaptor.go:Adaptor.ServeHTTP", "handler/onpanic.go:OnPanic", "response/writer.go:basicWriter.MaybeWriteHeader"]}
{"id": "C74", "title": "A handler can abort the response by panicking", "statement": "net/http documents that a handler may panic, in particular with http.ErrAbortHandler, in order to abort the response so that the client can tell that it is not whole. So it should be with a handler of this package.", "quantifier": "all panic values, Bodies, OnPanic functions, HTTP/1.1 and HTTP/2", "why_tests_cant": "Quantifies over all handlers and OnPanic functions; whether a client can tell is not seen by a test that uses a ResponseRecorder.", "anchors": ["handler/adaptor.go:Adaptor.ServeHTTP", "handler/onpanic.go:OnPanic", "handler/onpanic.go:DefaultOnPanic"]}
{"id": "C75", "title": "WithContentType normalises the media type it is given", "statement": "WithContentType accepts exactly the media types: a type name and parameters with distinct names, in the syntax of RFC 2045 and RFC 2231 with white space around the parts; it panics, and changes nothing, if given anything else (or a nameless parameter, which cannot be written). The value of the header means the same as the argument: the type in lower case and the same parameters; two arguments give the same value exactly if they mean the same; the value given again is left as it is; and whatever bytes are in the argument, the value consists of printable ASCII characters and tabs, so that it cannot break out of its header.", "quantifier": "all byte strings; all states of the Builder", "why_tests_cant": "Quantifies over all byte strings, with a grammar that has quoted strings, escapes, three kinds of values, white space outside ASCII and values in any number of pieces; in particular the absence of line breaks is a security property that a sample of arguments cannot establish.", "anchors": ["response/builder.go:Builder.WithContentType"]}
{"id": "C76", "title": "Nothing in a Response can be mistaken for the end of it or the start of another", "statement": "Let a handler's Response be sent by the net/http server over HTTP/1.1, with a status from 200 to 999, a body that fits its status and Content-Length, no Transfer-Encoding header, and Content-Length headers only under that spelling that agree on the number (none at all, or the one that Build adds, will do). Then, whatever bytes are in the other header names and values, in the body and in trailers, and however the server orders the headers, cuts the body into chunks or counts its length, a client that reads according to RFC 7230 (strict about ends of lines or not) gets exactly one message: with the status and the body of the Response, and under every header name the values of the Response in their order, with line ends turned into spaces and without spaces at their ends, and nothing under names that are not tokens or under Push; and it is then at the first byte of what follows. So the n-th message on a connection is the n-th Response. If the connection breaks before the end, what has arrived is not a message. With a length under another spelling that fails. With a Transfer-Encoding header (under that spelling) it depends on its first value: if it is chunked, the message arrives, whatever length is declared; if it is identity, it arrives if a length is declared, and otherwise the body ends where the connection does; if it is empty, it arrives if the length is declared or counted by the server; with any other, and in no other case, no client can read it.", "quantifier": "all header maps, bodies, trailers, statuses from 200 to 999, choices of the server, continuations of the connection, and clients strict and lenient about line ends", "why_tests_cant": "Quantifies over all byte strings in headers and bodies: response splitting is about the values that a test's author did not think of.", "anchors": ["response/response.go:Response.Serve", "response/builder.go:Builder.Build", "response/builder.go:Builder.WithHeader", "response/builder.go:Builder.WithHeaders", "handler/adaptor.go:Adaptor.ServeHTTP"]}
{"id": "C77", "title": "A client takes no answer for that to another request", "statement": "Let requests on a connection of HTTP/1.1 be answered by handlers that panic or return Responses with a status from 200 to 999 and with headers as Build makes them (no Transfer-Encoding; Content-Length, if any, under that spelling and a number). Whatever the Bodies do - deliver fewer or more bytes than declared, fail, panic, hang - and wherever the server stops when a handler panics: the n-th message that a client makes out is the response to its n-th request, with the status and the body that were sent for it, and the body is of the declared length. Once ServeHTTP has returned, the client can make out a message exactly if the body is of the declared length. As long as responses are as declared, all are received.", "quantifier": "all sequences of requests, handlers, Responses with such headers, Bodies (any behaviour), OnPanic functions, choices of the server, and points at which the server stops", "why_tests_cant": "Quantifies over all behaviours of Bodies and all sequences of requests on a connection; getting out of step (request smuggling, responses given to the wrong request) is not seen by tests of single requests.", "anchors": ["response/response.go:Response.Serve", "response/builder.go:Builder.Build", "response/writer.go:basicWriter.Write", "response/writer.go:fancyWriter.ReadFrom", "handler/adaptor.go:Adaptor.ServeHTTP"]}
{"id": "C78", "title": "Goroutines that use Bodies do not race, in the sense of the Go memory model", "statement": "In every execution of any number of goroutines that call methods of a Body and of its copies, of any two accesses to the same variable (a field of the shared state or of a Body) by different goroutines, at least one of which is a write, one happens before the other, where happens-before is what the Go memory model says: the order within a goroutine, an unlock of a mutex before every later lock of it, the making of a Body before its use by those to whom it is given, and what follows by transitivity. Hence a goroutine finds the value of the last write even if the memory lets it find any value that is visible in the sense of the memory model: all that is true of interleavings of the goroutines (linearizability, the bytes that each reads) is true of the executions that Go allows. For Seeker-backed Bodies this is true of all variables but the shared length, and of that one as long as nobody calls BytesRemaining.", "quantifier": "all programs of any number of goroutines, all interleavings and all values that the memory model lets reads find, all backing readers, all four kinds of Body", "why_tests_cant": "The race detector sees the executions that the tests happen to make; stale reads do not occur on the machines on which tests are run; quantifies over all executions.", "anchors": ["body/bytes.go:bytesBody.Read", "body/bytes.go:bytesBody.Copy", "body/buffered.go:bufferedBody.Read", "body/buffered.go:bufferedBody.Copy", "body/readerat.go:readerAtBody.Read", "body/readerat.go:readerAtBody.BytesRemaining", "body/seeker.go:seekerBody.Read", "body/seeker.go:seekerBody.BytesRemaining"]}
{"id": "C79", "title": "A client that reads what FromPrettyJSON serves as JSON gets the value", "statement": "FromPrettyJSON panics exactly if the value has no meaning in JSON (somewhere in it is a number that is none, or a value that cannot be encoded) or if it is nested more than 10000 deep. Otherwise the Body serves bytes that are a JSON text according to RFC 8259 and have exactly one meaning, that of the value: the same numbers, digit for digit, the same strings with bytes that are not UTF-8 replaced by U+FFFD, for values that encode themselves what their text means, the elements of arrays in their order, the fields of structs in their order, and the entries of maps in the order of their keys, whatever the order in which the map yields them. Each element stands on a line of its own, indented by two spaces for each level, and lines end in CRLF. A client to which the Body is sent over HTTP/1.1 gets this text, whole. A value that encodes itself as arbitrary bytes is accepted exactly if they are a text of the grammar of RFC 8259 (read as bytes: strings need not be UTF-8) nested at most 10000 deep, on its own and as part of any value that with it is nested at most 10000 deep (FromJSON takes exactly the values whose parts can each be encoded, however deep); of such a text nothing but blanks outside of strings is changed, texts that differ in such blanks only are served alike, and what has been served is served again as it is. Whatever the value, what FromPrettyJSON serves is a text of this grammar.", "quantifier": "all values made of null, booleans, integers, numbers in text form, strings of arbitrary bytes, slices, maps, structs, and values that encode themselves as any JSON text with any blanks and escapes or as any bytes, nested in any way; all statuses and headers; all choices of the server", "why_tests_cant": "Quantifies over all values and all byte strings in them; strings with invalid UTF-8, control characters or the separators U+2028 and U+2029, empty arrays in arrays and the limit on nesting are what examples leave out.", "anchors": ["body/body.go:FromPrettyJSON", "body/body.go:fromJSONImpl", "body/body.go:FromJSON", "response/response.go:Response.Serve"]}
{"id": "C80", "title": "What a handler tells a Builder is what the client gets", "statement": "A handler makes a Builder, makes any calls on it in any order (status, headers set, added and removed, content type, language and encoding, ETag, digests, a Body of bytes, of JSON, of a protobuf message, or any Body that the program has, error, a header map of the program, a page generator of the program, redirect page, error page), and builds a Response. Either this panics, and then the calls ask for something that cannot be (an invalid status, an empty name, a media type that is none, a value without a JSON text, no Body, ...); or they lead to a plan, in which a header name stands for all its spellings and a later call overrides an earlier one, and a client (of HTTP/1.1 or of HTTP/1.0) that gets the response reads exactly the plan: the status, the body (nothing for HEAD and 204), for each name, in whatever spelling it is asked for, the planned values in their order (line ends replaced by spaces), the default content type if none was planned, and no Push header; it then is at what follows on the connection. This holds if the status is not 304, no Transfer-Encoding is planned, and a planned Content-Length is the length of the body; OnPanic then is called only if the body is empty (with EOF, see C08), and the connection can be used for the next request. Whatever programs did with Builders and Bodies before makes no difference, nor does what other goroutines do in between with other Builders, Bodies and maps. A client that sends several requests on a connection gets, in order, what each handler planned. A copy of a Response (with any Body of this repository) arrives as the Response itself does, and either still does after the other was served; when a Builder is copied in between, each of the two goes on from what was planned so far.", "quantifier": "all lists of calls with all arguments, all implementations of Body that deliver their content (all of this repository, over readers that honour their contracts, at any position, copied or not), all states of other Builders and Responses before, all orders of the headers, all choices of the server, GET and HEAD, strict and lenient clients, whatever follows on the connection", "why_tests_cant": "Quantifies over all sequences of calls; it spans the Builder, the Body, the Adaptor, the Writer, net/http and the client, where tests look at one of them with a handful of calls.", "anchors": ["response/builder.go:Builder.WithHeader", "response/builder.go:Builder.WithoutHeader", "response/builder.go:Builder.WithStatus", "response/builder.go:Builder.WithContentType", "response/builder.go:Builder.WithETag", "response/builder.go:Builder.WithDigest", "response/builder.go:Builder.WithPrettyJSON", "response/builder.go:Builder.RedirectPage", "response/builder.go:Builder.ErrorPage", "response/builder.go:Builder.Build", "response/response.go:Response.Serve"]}
{"id": "C81", "title": "Clients of HTTP/1.0 get the response too, and know when it is cut if its length was told", "statement": "A client of HTTP/1.0, which knows of no chunks, gets one message for a response: the status, the body (nothing for HEAD and 204) and the values of the headers as the Response has them, but for Push and what the server sets itself. This is so for every response whose body has room in its declared length, if the Content-Length values, as they arrive, are numbers that agree with each other; and this condition is needed. Where the length is declared or the server knows it, the client knows where the response ends, goes on with the next one on the connection, and never takes a cut response for a whole one. Where it is not, the server closes the connection after the body, and a response cut within its body is taken for a whole one with a shorter body. So a Body that fails after a part is noticed by the client if more was declared, and never if nothing was, not even if OnPanic panics (over HTTP/1.1 it then is). If the Response has no Connection header, the message has one exactly if the client asked for keep-alive and the length is told; it says keep-alive, and exactly then the connection stays open. A Content-Length that is no number reaches such a client as it is, which HTTP/1.1 clients do not see.", "quantifier": "all Responses and Bodies that deliver their content, all headers, all choices of the server (order of headers, reason, date, automatic length, closing), with and without keep-alive, GET and HEAD, strict and lenient clients, every place at which a response is cut, all sequences of responses on a connection", "why_tests_cant": "Quantifies over all headers, bodies and cuts; tests use HTTP/1.1 recorders that never write bytes.", "anchors": ["response/response.go:Response.Serve", "response/writer.go:basicWriter.WriteHeader", "response/writer.go:basicWriter.Write", "handler/adaptor.go:Adaptor.ServeHTTP"]}
{"id": "C82", "title": "Floating-point numbers in JSON are read back as the numbers that they are", "statement": "FromPrettyJSON writes a float64 or float32, on its own or in a value, as a JSON number from which a reader that rounds to the type gets the same number, with the same sign: digit for digit the number that strconv's digits stand for, so that different numbers have different texts. The text has an exponent (one digit before the point, a sign, no leading zeros in the exponent) exactly if the number is not zero and below 1e-6 or at least 1e21, and otherwise none. Every finite float64 has such digits, and at most 17 if they are the fewest. Infinities and NaN, anywhere in a value, make FromJSON and FromPrettyJSON panic.", "quantifier": "all finite floating-point numbers of either type with any digits that round to the number, all ways of rounding that keep the order; all values with an infinity or NaN anywhere in them", "why_tests_cant": "There are 2^64 numbers; the bounds between the forms of writing and the exponents that are shortened are met by few of them.", "anchors": ["body/body.go:FromPrettyJSON", "body/body.go:fromJSONImpl", "body/body.go:FromJSON"]}
{"id": "C83", "title": "A Reader that uses the Bodies made of it waits for itself", "statement": "If the method of a Reader, called by a Reader-backed Body, calls a method of a Body of the same family, then this call, the Reader's method and the call of the Body that called it never return, in whatever order goroutines are scheduled, and every other goroutine that waits for the family's mutex waits for ever. The only exceptions are calls on other Bodies that do not need what the family shares: on a closed Body, BytesRemaining of a stream-backed Body at its end, Read of a ReaderAt- or Seeker-backed Body that has met an error or its end, ReadAt at a negative offset, and BytesRemaining of a Seeker-backed Body. These return what they return when made alone, and the Reader goes on.", "quantifier": "all Readers, whose calls may depend on their state and on what the calls before have returned, all numbers of goroutines and sequences of calls, all interleavings, all states in which the Reader is called", "why_tests_cant": "A test of a deadlock never ends, and it would meet one schedule out of infinitely many.", "anchors": ["body/buffered.go:bufferedBody.Read", "body/buffered.go:bufferedBody.Close", "body/buffered.go:bufferedBody.BytesRemaining", "body/readerat.go:readerAtBody.Read", "body/readerat.go:readerAtBody.ReadAt", "body/seeker.go:seekerBody.Read", "body/seeker.go:seekerBody.BytesRemaining"]}
{"id": "C84", "title": "A Writer that uses the Body that is written into it waits for itself", "statement": "If the Write method of a Writer, called by WriteTo of an in-memory Body, calls a method of this Body (other than Unwrap), then this call, Write and WriteTo never return, in whatever order goroutines are scheduled, and every other goroutine that waits for the Body waits for ever. WriteTo returns only if it did not call Write (the Body is closed or at its end), or Write made no call on the Body; then it returns what Write answers. If Write calls methods of other Bodies only - and likewise the Writers to which these write, to any depth - then, alone, WriteTo returns the result and leaves the Body in the state that it would with a Writer that makes no calls and answers the same, and the other Bodies are as the calls, one after the other, left them. But two goroutines that write two Bodies into Writers each of which uses the other's Body may wait for each other for ever, though either alone returns. This cannot happen if there is an order of the Bodies such that Writers use only Bodies above the one that is written into them: then all calls of all goroutines return. There is no data race in any case.", "quantifier": "all Writers, whose calls and answer may depend on the Body, the data and what the calls before have returned, nested to any depth, all numbers of goroutines and sequences of calls, all interleavings, all reachable states", "why_tests_cant": "A test of a deadlock never ends, and it would meet one schedule out of infinitely many; that two goroutines do not wait for each other in one run says nothing about the next.", "anchors": ["body/bytes.go:bytesBody.WriteTo", "body/bytes.go:bytesBody.BytesRemaining", "body/bytes.go:bytesBody.Read", "body/bytes.go:bytesBody.Copy"]}
{"id": "C85", "title": "A Response is sent over HTTP/2 exactly if it can be sent without pushes and no push fails", "statement": "Over the net/http server for HTTP/2 a Response arrives intact if and only if its body has room (as over HTTP/1.1) and none of its pushes fails: the request is not itself one that the server has pushed, every value of the Push header is an absolute path or a URL of the request's scheme with a host, correctly escaped and without control characters, and the connection accepts each of them or does not do pushes. If so, the client gets what it gets without pushes, and exactly the accepted targets are promised, in their order. If not, nothing of the Response is sent: the client gets an empty 500 without headers, though targets before the one that failed have been promised, the error is counted and reported as a panic under the status 0, and the Body is neither read nor closed. This is so even for clients that want no pushes if a target is wrong, while the same Response arrives intact over HTTP/1.1.", "quantifier": "all Responses and Bodies, all Push values (any bytes), all answers of the connection, GET and HEAD, http and https, all authorities", "why_tests_cant": "Tests use recorders, which do not push or accept every target; there are infinitely many targets, and what the connection answers depends on the client and on other streams.", "anchors": ["response/response.go:Response.Serve", "response/writer.go:basicWriter.Push", "handler/adaptor.go:Adaptor.ServeHTTP"]}
{"id": "C86", "title": "In an http.TimeoutHandler a Response arrives exactly if it is in time and arrives without one", "statement": "Let an Adaptor be wrapped in the http.TimeoutHandler of net/http. If the handler returns in time, its Response arrives intact if and only if the body fits its status and Content-Length, as without the TimeoutHandler, with the same status and headers. If not in time, the client gets 503 and the message of the TimeoutHandler, in a message that it can read to its end, with no header and no byte of the Response. If the time is up before the first byte of a non-empty body is written, the Body is given up and http.ErrHandlerTimeout is counted and reported as a panic; if it is up between two Writes, the part written before is counted, and the error reported in the same way. If the handler panics, or its Body fails, it is reported as without the TimeoutHandler, and if OnPanic panics then, nothing is sent and the panic reaches the server, which cuts the connection. But what goes wrong after the last Write is not noticed: a body longer than its Content-Length is dropped as a whole, or 503 is sent, and the metrics count the Response as sent under its own status.", "quantifier": "all Responses, all Bodies that deliver some content (in particular all kinds of this package), statuses from 200 to 999, GET and HEAD, all OnPanic functions", "why_tests_cant": "When the time is up is a race with the handler; a test sees one outcome of it, and one of the infinitely many pairs of Content-Length and body.", "anchors": ["response/response.go:Response.Serve", "response/writer.go:basicWriter.Write", "response/writer.go:basicWriter.WriteHeader", "response/writer.go:NewWriter", "handler/adaptor.go:Adaptor.ServeHTTP"]}
{"id": "C87", "title": "What a test records with an httptest.ResponseRecorder tells whether the Response would arrive over net/http", "statement": "Let an Adaptor answer a request with an httptest.ResponseRecorder. Recorded are the status of the Response, its headers without Push, and all bytes of its body (none for HEAD and 204), whatever its Content-Length says; the metrics count these bytes and no panic. If what was recorded passes a check that a test can make (HEAD, or 204, or 304 and no body, or else no Content-Length or one equal to the length of the body), then the same Response arrives intact over net/http, with the recorded status, headers and body and the same metrics; and if it fails the check, the Response does not arrive intact. If the Body fails, what came before is recorded in the same way as a whole body, and only metrics and OnPanic tell. If the handler panics, an empty 500 without headers is recorded, whatever OnPanic does. Without an Adaptor, recorded are all bytes written in order, and the status and headers of the first call that begins a response (200 for Write and Flush).", "quantifier": "for every Response with a status from 200 to 999 and every Body that delivers its bytes or fails after some, every content type detector, both settings of raising panics, GET and HEAD, HTTP/1.0 or later, and every OnPanic", "why_tests_cant": "a test with a ResponseRecorder accepts responses that net/http cuts or refuses; that one check makes the two agree for every body, status and header map is not shown by any number of recorded responses", "anchors": ["response/response.go:Response.Serve", "response/writer.go:basicWriter.Write", "response/writer.go:basicWriter.WriteHeader", "response/writer.go:NewWriter", "handler/adaptor.go:Adaptor.ServeHTTP"]}
