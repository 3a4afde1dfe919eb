# AardWARC: formal model and proofs

This directory holds a Lean 4 model of AardWARC (bsdphk/AardWARC, source in
`/repo`) and kernel-checked proofs about it.  `properties.jsonl` lists the
properties, `MANIFEST.json` says which theorem proves which property, and this
file says what is modelled, how, and what is trusted.

## Layout

* `lean/Verif/Basic/*`  – bytes, endian coding, C strings, the outcome type.
* `lean/Verif/Model/*`  – the model, function by function.  Every definition
  cites the file and lines in `/repo` it follows and says what is simplified.
* `lean/Verif/Spec/*`   – small specifications used in theorem statements.  They
  do not use the model's helper functions.
* `lean/Verif/Proofs/*` – helper lemmas.
* `lean/Verif/Props/*`  – the property theorems, each with an `example` showing
  that a concrete case meets its hypotheses, and the counterexamples where the
  code does not have the property.

## Modelling conventions

* C bytes are `UInt8`, byte strings and files are `List UInt8`.
* Unsigned C arithmetic is done on `Nat` with explicit `% 2^n` where the C code
  can wrap; signed values are `Int`.
* A function that can trip `assert`/`AN`/`AZ`/`WRONG` returns `Res α` with
  outcomes `ok`, `fail` (abort) and `ub` (undefined behaviour, e.g. a read
  outside a buffer).  Loops that need not terminate are given as step relations
  or with fuel, and termination/non-termination is a theorem.
* The operating system and zlib are parameters or explicit small models.

## Plan per property

| id | what is modelled | proof idea |
|----|------------------|------------|
| C01 | `IDX_Insert` record layout and the decoding in `IDX_Iter` | round-trip of hex packing and big-endian coding |
| C02 | `IDX_Iter` over the appendix | induction over the file |
| C03 | `bucket_*`, `idx_merge` output file as bytes, seek and scan | bucket offsets are lower bounds; exactness under an explicit condition on the seek target; counterexamples where the code aborts or misses |
| C04 | `IDX_Iter` with no key | corollary of the bucket-0 path |
| C05 | `idx_merge`, `idx_attempt_merge`, `IDX_Resort` as functions on the index directory | set equality by induction over chunks |
| C06 | same | invariant by induction over operations |
| C07 | the same as a step machine with a crash after any step | invariant on the union of files; re-run theorem |
| C08 | interleaved step machines for n housekeepers | invariant: owner of the hold file |
| C09 | interleaved writer / housekeeper with inodes | partial: writes finished before the snapshot survive; witness schedule for the loss |
| C10 | interleaved reader / housekeeper | partial, with witness schedule |
| C11 | `IDX_Valid_Id` | case analysis against a declarative spec |
| C12, C13 | `header.c` | induction over operation lists |
| C14 | `Header_Serialize`, `Header_Parse` | induction over fields |
| C15 | `Header_Get_Number` and decimal formatting | induction over digits |
| C16, C17 | `numpart`, `Silo_Filename` | injectivity of base-100 directory paths |
| C18 | `Silo_Iter` | induction over silo number |
| C19 | `Gzip_WriteAa`, `Gzip_ReadAa` | round-trip; out-of-bounds counterexample |
| C20, C21 | `gzip_stitch` machine; an RFC 1951/1952 decoder as specification | simulation and decoder extension lemmas |
| C22 | CRC-32 bitwise | GF(2) linearity; counterexample for lengths of 2^32 and more |
| C23, C24 | `rsilo.c` over silo bytes | decoder lemmas, induction over records |
| C25, C26, C28, C29, C30 | `wsilo.c`, directory of silos and holds | invariants over operation sequences and crash points |
| C27 | interleaved storing processes | invariant: owner of each hold file |
| C31 | `SegJob_Feed` with an arbitrary compressor | invariant over the feed loop |
| C32–C36 | `getjob.c`, archive model | refinement to a map from ID to content; counterexamples |
| C37, C38 | `main_audit.c` | soundness; non-termination of the pending loop |
| C39, C40 | `main_reindex.c` | invariant of the pending list over all arrival orders |
| C41 | `main_filter.c` | merge-walk invariant; counterexamples for short or upper-case IDs |
| C42 | `proto.c` framing | round-trip by induction |
| C43 | filter exchange of stow and stevedore | invariant on the wait list |
| C44, C45 | `vlu.c` | simulation; non-termination witness |
| C46 | `vsb.c` | buffer invariant |
| C47 | `config.c` | round-trip of rendered configurations |
| C48 | `vnum.c` | doubles are a parameter (`Vnum.FP`) with the IEEE error bounds |
| C49, C50 | `ident.c`, `main_store.c` ID handling | injectivity of the hash input; counterexample for URIs |
| C51 | `Rsilo_ReadHeader` buffer accesses | `ub` outcome; counterexample |
| C52 | `silo_mkparentdir` | termination for absolute paths; non-termination witness |
| C53 | `main__testbytes` | induction |
| C54 | audit of the archive model of C32 | every stored record is a good record; arrival order of the segments |
| C55 | `GetJob_Headers` over the archive model | what the first and last segment's headers say about the whole |
| C56 | silo numbers in the archive model | invariant over stores: numbers below the next free one all exist |
| C57 | `Wsilo_Append` search | first-fit over the silos; a protected silo stops it |
| C58 | `AardWARC_New` | case analysis over the configuration, on top of C47 and C48 |
| C59–C61 | `main_store.c`, `main_get.c` | equivalence with a description of what is allowed; histories of commands are histories of stores |
| C62 | the whole stow job: client, server, store and metadata jobs | invariant on top of the one for C43, with the items sent split by where they are; measure for the end |
| C63 | `mtree_interpret`, `mtree_process`, `mtree_in` | induction over the lines of the output as mtree(5) describes it; cutting into reads by an invariant on the buffer |
| C64 | `getjob.c` over the archive model | inversion of the search: what is taken at each step is the next segment of an object with the ID |
| C65 | `main_cgi.c` | on top of C64 and C60; the answer is read by a parser written from RFC 3875 |
| C66 | `main_byid.c`, `main_dumpindex.c` | the exact result of the index iteration (C03), applied to the records of an archive |
| C67 | `main_rebuild.c` | invariant on what `deflate` has been fed; induction over pieces, members and records; then over histories of stores, with C54 for the result |
| C68 | `main_mksilo.c`, `Wsilo_New`, `Wsilo_Install` | inversion; the archive invariant with one record more; the histories get such steps |
| C69 | `segjob.c`, `wsilo.c`: no assertion fails while storing | a bound on what zlib still holds back (`Live`) against the space left in the hold file; induction over the rounds of `SegJob_Feed` |
| C70 | `proto.c`: the event loop; which events the handlers of `stow` and `stevedore` remove | invariant of the list during a pass (what is behind the current event stays), for any handlers; then the handlers of the two programs |
| C71 | the stow job over pipes with limited room | run to the state in which both wait, for any sizes of the pipes; positive part: every run is one of C62, whose measure bounds what the server writes |
| C72 | the stow job with the programs `filter` and `store` on the archive | simulation: each step is one or two steps of the machine of C62, where what is known is what the index has |
| C73 | `Wsilo_Commit`, `SegJob_Commit` cut off at any point | archive invariant on the silos with the missing ones added (`withGhosts`); the hold file of a missing silo keeps its number from being used |
| C74 | silos cut short: audit, get, reindex | a proper prefix of a gzip member is none (the decoder is local); case analysis on the place of the cut, induction over the records in front of it |
| C75 | `utilities/select_silos.py`: `Encrypt_File` | the pieces make one key stream; `replace(".bin", "")` commutes with the last slash and swallows the ".bin" of the copy |
| C76 | `utilities/select_silos.py`: `silodates.txt`, the sort, the loop | round trip of `silodates.txt`; silos not yet staged sort before the others, so each run takes at least one of them |
| C77 | `utilities/select_silos.py`: the directories, one system call at a time | only two steps touch `STAGING`; what is renamed is complete; case analysis on the place of the cut |
| C78 | `main.c` and the loops over getopt(3) | inductive relation between options and the ways to write them; induction on it with the state of getopt(3) |
| C79 | `vsb.c`: `VSB_quote` | a reader for C literals as specification; induction on the bytes |
| C80 | `vqueue.h`: tail queues with their pointers | chain predicate with a frame rule; refinement to lists |
| C81 | `main_reindex.c` as a whole, on what killed stores leave | the silos consist of objects, first segments of objects and warcinfo records, whatever was killed; induction over the silos, then the second pass over the segments left over |
| C82 | `IDX_Insert` with a short `write(2)` | the length of the file modulo 32 stays what it is; a scan that is not ended by its callback comes to the short entry |
| C83 | `main_reindex.c` on top of an index | the inserts of the stores followed by those of the reindexing; the same entries as a set |
| C84 | `stevedore_out`: the path for `openat(2)`, with `strnunvis(3)` | each notation of a byte is a path through the decoder that ends where it began (all 256 bytes, by cases); induction over names and trees, on top of C63 |
| C85 | `storeObj` (sequential) and the step machine of `Model/Commit.lean` | refinement: each call of the sequential program is a sequence of steps with the same files; induction over segments and objects |
| C86 | `Model/Stevedore.lean`: the server with any client | invariant over all runs, which ties the state to the messages the stream begins with (`Frames`), and these to the sequences of pieces (`Objects`, `Metas`) |
| C87 | `mainStow`: the targets, their configuration, the loop over the jobs | iff with a description of the section's last values; induction over targets and jobs |
| C88 | `Model/StowAny.lean`: the client with any server | invariant over all calls of handlers: the lists of the client are pieces of the listing, the answers of the server are for the files in the order they were sent |
| C89 | the processes of `Model/Commit.lean`, `getjobNew` and `getjobIterate` | the number of object entries of each process is an invariant of the step machine; every entry of a finished process points at a complete record (C13), so the index after the run is one for which C04 and C32's lemmas apply |
| C90 | `Model/HkErr.lean`: `IDX_Resort` and `IDX_Iter` with calls that fail | refinement (without failures it is `idxResort`); otherwise the invariant of C05 holds at every exit, for every set of failing calls |
| C91 | `Model/GetWhile.lean`: `GetJob_New` with an archive that changes between any two accesses; the processes of `Model/Commit.lean` | refinement (with a constant archive it is `getjobNew`); silos only grow, so what is true of a record when it is looked up stays true until it is opened and read |
| C92 | `auditOne` … `mainAudit` with and without the option; `Model/AuditArgs.lean`: files as arguments | the run with the option is a function of the run without (induction over the records); refinement of the run without arguments |
| C93 | the metadata of `Model/StowData.lean`; `Model/Info.lean` | `Spec/Json.lean` is RFC 8259 as a function from texts to what they say; induction over the files that have changed |
| C94 | `Model/StoreErr.lean`: `Wsilo_New`, `Wsilo_Commit`, `SegJob_Commit` with calls that fail | refinement: a store that returns is `storeObj` in a world with more hold files, one that stops is `storeCut`; so C73 applies |
| C95 | `Model/StevJobs.lean`: `job_start` and the handlers of `stevedore` as processes with inherited ends of pipes | invariant (only ends of earlier jobs that are no filters are inherited), measure |
| C96 | `Model/ReindexArgs.lean`: `main_reindex` with arguments, the number from a name | `reindexMain` for any of the silos: pending segments that do not meet all others are matched with the entries there are |
| C97 | `Model/ReindexKill.lean`: `main_reindex` as a sequence of changes of the index | the sequence does not depend on the index; every part of it only inserts entries that were there |
| C98 | `Model/Stdio.lean`: the stream that `main_get` writes to (`fwrite`, flush at exit) over `write(2)` that may fail or write in part | bytes on disk and in the buffer are the beginning of what was delivered; lost is at most what is in the buffer at exit |
| C99 | `Model/StevRead.lean`: the loops of `input` that read a message, with calls of `read(2)` that fail | the buffer and the rest of the stream after any sequence of calls, by induction |
| C100 | `Model/ProtoCut.lean`: `proto_out` with writes that fail or are cut, and the receiving loops of `Model/Proto.lean` | the stream as a beginning of the whole one, on top of C42 |
| C101 | `Model/Print.lean`: the lines that `main_filter` prints to the stream of `Model/Stdio.lean`, without looking at the results | bytes on disk and in the buffer are a sublist of what was printed, by induction over the calls |
| C102 | `Model/StowTmp.lean`: the temporary files of `main_stow.c` over the streams of `Model/Stdio.lean` | what was sent is a beginning of the output of mtree; its digest is compared in `data_resp` |
| C103 | `Model/IndexErr.lean`, `Model/GetErr.lean`: `IDX_Iter` and `GetJob_New` with files that cannot be opened or read | what is read is a beginning of the records; induction over the scan of both; equal to `IDX_Iter` on a smaller index |
| C104 | `Model/SiloErr.lean`: `Silo_Iter` as a loop that need not end, over a 32-bit number, with calls of `stat` that fail | induction over the rounds; two file systems that the loop cannot tell apart |
| C105 | `Model/FilterErr.lean`: `read_file` and `main_filter` with lists that cannot be read to their end | induction over the pieces that `fgets` takes; equal to `main_filter` on shorter lists |
| C106 | `Model/GetRead.lean`: `Rsilo_ReadGZChunk`, `Rsilo_ReadChunk`, `GetJob_Iter` and `main_get` with calls of read(2) that fail in the body of a record | induction over the calls and over the segments; the stitching of C20 for the segments before the error; the output of the stitching only grows |

## How the pieces fit

* **Index** (`Model/Index.lean`): the index directory is a record of three files as
  bytes (`sorted`, `appendix`, `housekeeping`).  The theorems are over *histories*:
  `Spec.runOps {} ops` for any list of inserts and housekeeping runs.
* **Archive** (`Model/Wsilo.lean`, `Segjob.lean`, `Getjob.lean`, `Reindex.lean`,
  `Audit.lean`, `Filter.lean`): a `World` is the silo files, hold files, cache file
  and index directory.  Histories are the relations `Later`, `Stores` and
  `Tidy` (`Props/Store.lean`, `ReindexArch.lean`, `Dense.lean`): sequences of stores, index
  housekeeping runs, and changes that leave the contents of the silos alone (write
  protection, hold files, the cache), from an empty index.  C32–C36, C40, C41, C54–C56
  are about those.  `Session` (`Props/MainStore.lean`) is the same for whole commands; C59–C61 use it.
* **Concurrency** (`Model/Commit.lean`, `Model/Hk.lean`, `Model/Stow.lean`,
  `Model/StowData.lean`, `Model/StowPipe.lean`, `Model/StowArch.lean`): step
  machines with one step for each system call (or message) that another process can
  notice, and all interleavings.  They repeat the effects of the sequential model at
  that granularity.  That they fit is proved for `Model/Commit.lean` (C85: what the
  sequential stores do is one of the executions) and for `Model/Hk.lean` (`hk_alone` in
  `Props/Hk.lean`: a housekeeper alone does what `idxResort` says); the jobs of
  `Model/StowArch.lean` are the functions `mainFilter` and `mainStore` of the sequential model.
* **Compression**: `Spec/Inflate.lean` is a decoder for RFC 1951 and 1952 written from
  the RFCs.  `deflate` is any function that meets `Spec.Zlib` (below).

## Where the code does not have the property

Every entry is a theorem with `counterexample` in its name.  A property with such an
entry has, beside it, the strongest positive statement found (suffix `_partial` when it
leaves out part of the property).

* C03: the binary search interpolates from the start of the file instead of from the
  end of its table; lookups can miss, abort, or read a record that is none.
* C09, C10: an insert, or a lookup, overlapping a housekeeping run can lose an entry.
* C14: a value with CR/NL splits its line (outside of the quantifier).
* C15: an empty value reads as 0; large numbers overflow `intmax_t`.
* C19, C51: with 16 to 23 bytes left, `Gzip_ReadAa` reads outside the buffer.
* C20, C22: a segment of 4 GiB or more gives a wrong CRC in the stitched object.
* C23: a header that does not fit a page aborts the reader.
* C28: the last segment of an object that compresses well trips the assertion on the
  reserved header length.
* C29: the index entry of a new silo is inserted before the silo exists; and two
  processes can build the same silo number.
* C31: a tiny `silo.max_size` gives an empty segment.
* C32, C33: the continuation field of the index has 32 bits; equal segments, or
  segments equal to other contents, clash and the search aborts.
* C37, C38: out-of-order segments are reported although complete; if the second
  segment is missing the audit never ends.
* C39, C40: an object stored twice (two processes) makes reindexing abort in some
  orders.
* C41, C43: IDs of fewer than 24 digits, and IDs with upper-case digits, are never
  found by `filter`; with `-s` a record is missed behind another with the same
  24 digits.
* C42: a message of 4 GiB or more (outside of what the program sends).
* C44, C45: NUL bytes make the line splitting depend on the cuts; a line that fills the
  buffer stops `VLU_Feed` in an endless loop.
* C47: names that differ only in case clash.
* C49: for every metadata record there is a resource content with the same ID.
* C50: a forced ID given as URI aborts the store.
* C52: a relative silo directory, no component of which exists, recurses for ever.
* C54: with IDs given by the user, the audit complains.
* C56: a hold file left over by a crash, or a cache file with too high a number,
  makes a gap in the silo numbers, behind which the audit sees nothing.
* C57: a write-protected silo at the start of the search stops all appending.
* C58: the length of IDs is cut to 32 bits before it is checked; `100 M` as silo size is
  silently replaced by the default; sizes from 2^63 on are negative.
* C59: `store` ignores a read error after the first piece, and stores the truncated
  object; with `*` in a list of mime types, `-m` can break the header of the record.
* C62: a stow job fails if a file is empty when it is opened (the server has no store
  job to end); if the list of files is in the archive while a file is missing (the
  metadata is sent before the file, and the connection closed); if there is a second target
  (the first leaves an entry on `ack_list`); and if the answer of a filter job comes after
  the metadata is stored.  If the connection cannot be written to for a while, the
  client can disable its output with a file open, and the job never ends.
* C63: a directory whose path, as mtree prints it, has 4095 bytes or more overflows
  `mtree_path`; a line of more than 8191 bytes is taken for the end of the output, and the
  files behind it are silently left out.
* C64: if an object is in the archive twice, cut in different ways, segments of both can be
  mixed, and `cgi` serves the result as the object.
* C65: an empty object or segment makes `cgi` abort; with `*` in a list of mime types,
  `-m` can add fields to the header that `cgi` sends.
* C66: `byid` ends with status 1 both for one match and for an argument that is no fragment
  of an ID; `dumpindex -t resource` omits objects in several segments; for fragments where
  the index search is not safe (C03) records are missed, or `dumpindex` aborts.
* C67: `rebuild` writes a NUL behind its buffer when `inflate` fills it, which contents that
  compress well do; it aborts for headers of `BUFSIZ` - 1 bytes (1023 on FreeBSD) or more;
  old records with contents longer than `BUFSIZ` overflow a buffer; a damaged silo is cut
  off at the damage, and the exit status is 0; after a silo that ends within a record the
  next one is misread.
* C68: `mksilo` takes a number with leading zeros as octal, and what is no number as 0; a
  silo whose number leaves a directory out is not seen by commands that go over all silos.
* C69: see C28 for segments that compress better than ten to one.  Looking up the ID of an
  object aborts when a record that is no continuation has the eight digits that the
  continuation records of an object start with.
* C70: the loop uses an event after it was freed if a handler removes the one behind its own
  (no handler of the programs does).  When the connection is lost while mtree runs, `stow`
  aborts on an assertion.
* C71: `stow` and `stevedore` can wait for each other for ever.  The server writes a response
  for each missing file, in one go, without reading; the client takes one response in a
  round, but first writes up to 128 KiB of a file.  With many files missing (about 1000 for
  pipes of 64 KiB) both pipes can be full at once.  The same holds for pipes up to 2 MiB.
* C72: a file whose contents are those of a later segment of an object in the archive is
  not stored by `stow`, and cannot be got afterwards, though everything ends well: `filter`
  does not look at the flags of index entries, and takes the record of that segment for the
  file, but `get` does not.  (With IDs shorter than 24 digits `filter` finds nothing, C41, and
  every file is sent.)
* C73: `store` writes the index entries of a record before the silo gets its name.  If it is
  killed in between, then `get` of that ID and every later `store` of the same object abort,
  until the index is made anew.
* C74: after a full disk, `reindex` enters the record that was cut short in the index; from
  then on `store` prints the ID of that object without storing it.  `get -z` of such a record
  delivers what is left and exits with success.  If the hold file is removed, further records
  are put behind the damage; `reindex` and `audit` abort there.  The audit does not notice that
  whole records are missing at the end of a silo.
* C81: a store of a segmented object that is killed when two of its segments are in silos, and is
  then repeated, makes `reindex` abort: the first segment of the second attempt meets the last
  one of the first attempt, which has been used already.
* C82: an index entry that is written in part (a full disk) makes every lookup of an ID that is not
  there abort, and with it every store of something new and every housekeeping run, for good.  An
  entry that is written behind it makes one of the two halves, which may point anywhere.
* C75: the IV of an encrypted copy depends on the name of the silo only.  Silos of one name
  with different contents (a rebuilt archive, another archive with the same keys) are encrypted
  with the same key stream, and the exclusive or of the two copies is that of the silos.
* C76: one silo larger than `QUOTA` stops all backups for good: it is first in the order, and the
  loop ends at the first silo that does not fit.  A silo that is named in `silodates.txt` and
  is gone makes every run end with an `AttributeError`, a file name with a blank makes the next
  run end with a `ValueError`.
* C77: a backup run killed between its two renames leaves silos recorded as staged that never
  were.
* C78: without `-c`, a configuration in the home directory with a mistake in it is passed over
  without a message, and the command works on the archive of `/etc/aardwarc.conf`.  A HOME of
  more than 1008 bytes and arguments of `housekeeping` end in failed assertions.  `audit` goes on
  after a misspelled `-i`.  `stevedore --` works until the first metadata job, as getopt(3) is
  not reset before a job is run.
* C86: if the client goes away inside a DATA message then `stevedore` exits with status 3, which
  closes the input of the store job: the object as far as it came is stored as if it were complete.
  Between two messages it waits for ever (with the hold file taken).  Inside a FILTER message,
  while a filter job runs, it goes on with an entry of the queue that it has freed
  (main_stevedore.c:339-343).  If the client goes away before it has its last answer, an assertion
  fails (`proto_ctl_ev` of the removed event).
* C87: `stow` exits with status 0 if the server does, even if nothing was sent: a server without
  the type of the metadata of `stow` in `metadata.mime-types` ends at once with status 0.  A target with `remote` and without `cmd`
  is accepted, and runs `ssh` without a command.
* C88: a server can make `stow` read behind the empty string of its end mark (by asking for an ID that was
  not listed), and use a file that it has closed (by confirming mtree's output twice).
* C89: an object that is completely stored cannot be got while another process that stores the same object
  is between writing its index entry and linking its silo, nor ever if that process is killed there:
  `GetJob_New` opens the record of every entry with the ID and asserts that this works.
* C90: `idx_merge` and `IDX_Iter` take an index file that cannot be opened (no descriptor left, no permission) for one that is
  not there.  Housekeeping then replaces `index.sorted` by what was inserted since the last time, and reports nothing; a read
  error in the file is taken for its end.  A short `read(2)` of the snapshot is taken for its end as well, and the snapshot is removed.  If the
  snapshot cannot be opened `spc` is freed twice (index.c:589, 648).  If the hold file cannot be made, but not as it exists, housekeeping
  goes on, removes the hold file of another process, and aborts.
* C92: `ignore-metadata-record-id` has no effect on metadata objects in several segments.  `audit a b` audits nothing if `a`
  cannot be opened, says nothing, and exits with status 0 (as it does whatever it finds).
* C93: `stow` does not quote the name of the job in its metadata.  If two files with the same digest have both changed, their
  digest is there twice as a name in one JSON object, so most readers see only the last.  An ID that the server tells goes into the metadata as
  it is, so the server can put other members into it (main_stow.c:489-491).
* C94: when no directory can be made (a full disk) `Wsilo_Next` tries one number after the other for ever (wsilo.c:137-142, 204-208).
  If `link(2)` fails the index has entries for a silo that is not there, and the object cannot be stored any more, as in C73.
  The cache file is written without a check: if a `write(2)` stops within a number, the file has a number that nobody wrote, which may
  be so high that the next silos come behind a gap, where `Silo_Iter` does not find them.
* C95: in `stevedore` a job inherits the pipes of the jobs that were started before it.  If a client begins to send metadata
  while it sends an object, the metadata job keeps the input of the store job open, and the server waits for ever.
* C96: `reindex` takes the number of a silo that is named from the beginning of the name, but `silo.basename` may have a text before
  it; all entries then have silo 0.  Reindexing a lost index silo by silo loses objects that have segments in several silos: a
  segment whose successor is in a silo of another run gets no entry, it is only listed as left over.  (Naming a silo without a slash is
  an assertion failure; so is naming the same silo twice, if it has a first segment.  IDs given with `-i` in capitals are not matched.)
* C98: `get` does not check that the output is flushed: on a full disk the last bytes of the object, as many as the buffer of the stream
  holds, are missing, and the status is 0 (main_get.c:75, 164-190).  A file that cannot be opened is a null pointer for `fwrite`.
* C99: the loops of `stevedore` add the -1 of a failed `read(2)` to the length (main_stevedore.c:344, 392, 430): a byte of the ID is lost and
  one of the next message is taken for it; if nothing has been read yet the ID is taken for the mark of the end, and read as messages.
* C100: `proto_out` goes on after a message that was not written whole (proto.c:241-246), and its callers do not learn of it: the next messages
  are taken for the rest of this one.
* C101: `filter` does not look at the results of `fprintf` (main_filter.c:291-294), nor is the output flushed: on a full disk lines are missing at the
  end or in the middle, and the status is 0.  (Each `fprintf` is taken as one `fwrite` of its text.)
* C102: nobody looks at the results of `fprintf` to `sj->changed` (main_stow.c:488-490): if a write fails and later ones do not, the metadata lack a
  file that has changed.  For the output of mtree errors are noticed in the end, because its digest is compared; the part that was sent is
  in the archive then, without metadata.
* C103: `IDX_Iter` passes over a file of the index that it cannot open, whatever the reason (index.c:431-433), and takes an error of `fread` for the
  end of the file (index.c:443-444): an object that is there is not found, and is stored again.
* C104: `Silo_Iter` takes a silo for which `stat` fails, whatever the reason, for one that is not there (silo.c:107-109), so that audit, reindex and
  rebuild pass over it in silence; if the directories cannot be looked at (EACCES) it does not end (silo.c:102-104).  It always returns 0.
* C105: `read_file` takes an error in reading a list for its end (main_filter.c:146): the IDs behind it are neither missing nor found, and the status
  is 0.  A directory is taken for an empty list.
* C106: `Rsilo_ReadGZChunk` takes an error of read(2) for the end (rsilo.c:245-246), `GetJob_Iter` returns nothing (getjob.c:255-264) and `get -z`
  compares nothing: a part of the object is written and the status is 0.  If the error comes at the beginning of a segment the part is a
  complete gzip file.
* C79: `VSB_quote` with VSB_QUOTE_ESCHEX lets an escape run into a following digit, and with
  VSB_QUOTE_JSON it does not make JSON.  (No command calls it.)

Seen while reading, without a theorem yet: `metafile` rewinds `sj->changed` also for `sj->missing` (which is always empty then).

## Trusted base

* The Lean 4.33 kernel.  The theorems depend on the axioms `propext`, `Quot.sound` and
  `Classical.choice` only (`#print axioms`), some on fewer.  There is no `sorry`, no
  `native_decide`, no `bv_decide` and no axiom of our own.
* That the model follows the C text.  This was checked by reading; every definition has
  the lines it follows.  `seeded/LOG.jsonl` lists wrong programs that were tried: edits
  of the model that break a property, and the theorems that no longer hold then.
* The meaning of the specifications in `lean/Verif/Spec` and of the statements in
  `lean/Verif/Props`.

### What is assumed of the environment

These are hypotheses of the theorems, not axioms.

* `Spec.EnvOk`: SHA256 is any function to 64 hexadecimal digits.  Nothing is assumed
  about collisions; where the code relies on their absence it is a hypothesis
  (`Clear`, `FirstsDiffer`).  `pack0`, `pack9` (zlib on short texts) give gzip members
  that the decoder of `Spec/Inflate.lean` decodes, with the lengths that zlib documents
  for stored blocks.  The configuration has an ID prefix that ends in a slash, and texts
  free of CR and NUL.  `Spec/Example.lean` has an instance; `example_envOk` in
  `Props/StoreExample.lean` is the proof.
* `Spec.Zlib`: the contract for `deflate` with the flush modes that `segjob.c` uses.
  An instance (stored blocks only, `stored_zlib` in `Proofs/ExampleZ.lean`) shows that it
  can be met.
* `Spec.Refill`: the contract for `deflate` with the flush modes that `main_rebuild.c` uses:
  input of less than 64 KiB is taken whole in one call with 128 KiB of room for output.  This
  is for pages of 4 KiB.  With pages of 16 KiB or more the room is smaller than the input,
  and the program loses what is not taken; there the contract cannot be met.  Instance:
  `stored_refill` in `Proofs/ExampleR.lean`.
* `Spec.Live` (C69 only): `deflate` takes its input when there is room, writes at most what it
  held back plus a small overhead, holds back at most 16 bytes after a partial flush and at
  most 32000 bytes otherwise.  The first bounds follow from the format of a block.  The last
  one is an assumption about the data: at `memLevel` 8 zlib holds back up to 16383 symbols,
  and these can take up to about 38900 bytes (short matches at far distances only).  With
  such data the assertion in `SegJob_Feed` that all input was taken could fail at the end of
  a silo.  Instance: `stored_live` in `Proofs/ExampleL.lean`.
* Files are byte strings; writes are complete; reads return what was written; `link(2)`
  and `open(O_EXCL)` are atomic; `stat`, `rename`, `unlink` act at once.  A full disk
  and a killed process are modelled for `store` (`Model/Crash.lean`) and for housekeeping
  (C07), failing calls in housekeeping and lookups in `Model/HkErr.lean` (C90), those in
  `store` in `Model/StoreErr.lean` (C94), other I/O errors only where a definition says so.
* `malloc` does not fail.  `isspace`, `isdigit` and `tolower` are those of the C
  locale; for bytes from 128 on, where C leaves `isspace(char)` open, they are taken as no
  white space.  `int` has 32 and `long`, `off_t`, `size_t` have 64 bits.
* Silo numbers stay below 2^32 - 1, index inserts below 2^31, unless a theorem says
  otherwise.

### What is modelled

`index.c`, `header.c`, `ident.c`, `silo.c`, `gzip.c`, `rsilo.c`, `wsilo.c`, `segjob.c`,
`getjob.c`, `warcinfo.c`, `vlu.c`, `vnum.c`, `vqueue.h` (the tail queue macros that are used), `proto.c` (framing and the event loop), `config.c`, `vsb.c`, `main_audit.c`, `main_reindex.c`, `main_filter.c`,
`main_testbytes.c`, `aardwarc.c`, `main_store.c` and `main_get.c` (the clock is constant;
errors in writing the output are in `Model/Stdio.lean` and `Model/Print.lean` only), `main_stow.c` and `main_stevedore.c` (mtree exits with status 0), `main_cgi.c`, `main_byid.c`,
`main_dumpindex.c`, `main_info.c`, `main_rebuild.c` (without the messages), `main_mksilo.c`,
`main.c` with the option parsing of all commands (getopt(3) and strnunvis(3) are those of FreeBSD),
`utilities/select_silos.py` (the cryptographic primitives are arbitrary functions).

### What is not modelled

Usage texts; `vas.c`.
