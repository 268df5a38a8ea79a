{"id": "C01", "title": "A chunked image behaves like one flat file", "statement": "Opening a backup image and applying any sequence of seek, write, read, truncate-at-position and flush gives, at every step, the same bytes, the same position and the same size as the same sequence on a plain byte array; in particular a read returns the most recently written bytes regardless of which chunks have been evicted from memory in between.", "quantifier": "all chunk sizes, all operation sequences, all initial images, all eviction orders (access times are arbitrary)", "why_tests_cant": "Eviction, dedup and chunk boundaries interact; a test samples a few offsets and sizes out of unboundedly many sequences.", "anchors": ["src/backy/rbd/chunked/file.py:File.read", "src/backy/rbd/chunked/file.py:File.write", "src/backy/rbd/chunked/file.py:File.seek", "src/backy/rbd/chunked/file.py:File.truncate", "src/backy/rbd/chunked/file.py:File._flush_chunks", "src/backy/rbd/chunked/file.py:File._current_chunk", "src/backy/rbd/chunked/chunk.py:Chunk.read", "src/backy/rbd/chunked/chunk.py:Chunk.write", "src/backy/rbd/chunked/chunk.py:Chunk.flush"]}
{"id": "C02", "title": "Closing and reopening an image preserves it", "statement": "After an image that was opened for writing is closed, opening it again (in any mode, by a process with a fresh cache) yields exactly the bytes and size it had when closed.", "quantifier": "all images, all operation sequences before the close", "why_tests_cant": "Requires that every dirty chunk, however it was produced, is in the store and in the mapping when close returns.", "anchors": ["src/backy/rbd/chunked/file.py:File.close", "src/backy/rbd/chunked/file.py:File.flush", "src/backy/rbd/chunked/file.py:File.__init__", "src/backy/rbd/chunked/chunk.py:Chunk.flush", "src/backy/rbd/chunked/chunk.py:Chunk._read_existing"]}
{"id": "C03", "title": "Seeking beyond the end zero-fills", "statement": "Seeking to a position beyond the end of a writable image extends it with zero bytes up to that position and leaves the bytes below the old size unchanged; no stale data from an earlier truncation becomes visible.", "quantifier": "all images (including truncated ones), all target positions", "why_tests_cant": "The stale tail of a chunk that was cut by a truncation is still on disk; only a proof covers all combinations of cut and regrow offsets.", "anchors": ["src/backy/rbd/chunked/file.py:File.seek", "src/backy/rbd/chunked/file.py:File.truncate"]}
{"id": "C04", "title": "Corrupt chunks are never served", "statement": "Reading from an image either returns bytes whose stored chunk hashes to the value recorded for it, or raises a backend error; a chunk file that is missing, undecodable or has other content is never returned as data.", "quantifier": "all store contents (including arbitrary corruption), all reads", "why_tests_cant": "Quantifies over every possible corruption of every chunk file.", "anchors": ["src/backy/rbd/chunked/chunk.py:Chunk._read_existing", "src/backy/rbd/chunked/chunk.py:Chunk.read", "src/backy/rbd/chunked/file.py:File.read"]}
{"id": "C05", "title": "Writing one revision never changes another", "statement": "Writing, truncating or flushing the image of one revision leaves the content that can be read back from every other stored revision unchanged, even though both share chunks.", "quantifier": "all stores, all other images in the store, all operation sequences", "why_tests_cant": "Sharing by content hash is global; tests check a handful of revisions.", "anchors": ["src/backy/rbd/chunked/chunk.py:Chunk.flush", "src/backy/rbd/chunked/store.py:Store.chunk_path", "src/backy/rbd/chunked/file.py:File.write"]}
{"id": "C06", "title": "truncate(size) resizes like a file", "statement": "truncate(size) leaves an image whose content is the first `size` bytes of the old content, zero-extended if `size` is larger, whatever the current position is, and later reads and writes behave accordingly.", "quantifier": "all images, sizes and positions", "why_tests_cant": "The failing cases are at particular position/size combinations that no test exercises.", "anchors": ["src/backy/rbd/chunked/file.py:File.truncate", "src/backy/rbd/chunked/file.py:File.read", "src/backy/rbd/chunked/file.py:File.write"]}
{"id": "C07", "title": "Garbage collection keeps every referenced chunk", "statement": "After gc every revision that was listed as local still restores to exactly the same bytes as before.", "quantifier": "all repositories, all sets of local revisions, all stores", "why_tests_cant": "Must hold for every sharing pattern between revisions.", "anchors": ["src/backy/rbd/__init__.py:RBDSource.gc", "src/backy/rbd/chunked/store.py:Store.purge", "src/backy/rbd/chunked/store.py:Store.ls"]}
{"id": "C08", "title": "Garbage collection removes every unreferenced chunk", "statement": "After gc the chunk store contains exactly those previously stored chunks which are referenced by some local revision, and a second gc changes nothing.", "quantifier": "all repositories and stores", "why_tests_cant": "Universal over store contents and sharing.", "anchors": ["src/backy/rbd/__init__.py:RBDSource.gc", "src/backy/rbd/chunked/store.py:Store.purge"]}
{"id": "C09", "title": "Diff streams are decoded exactly", "statement": "Decoding the byte stream of a well-formed RBD diff (header, from/to snapshot, size, data and zero records, end) yields exactly the records that were encoded, for every payload length including those larger than the streaming block.", "quantifier": "all record lists, all payloads and offsets below 2^64", "why_tests_cant": "A codec round trip over unbounded payloads and record sequences.", "anchors": ["src/backy/rbd/rbd.py:RBDDiffV1", "src/backy/rbd/rbd.py:unpack_from"]}
{"id": "C10", "title": "Truncated diff streams are rejected", "statement": "If the diff stream ends early at any byte before its end record, integrating it raises an error instead of succeeding, so a cut-off export never becomes a successful backup.", "quantifier": "all well-formed streams and all cut positions", "why_tests_cant": "Every prefix of every stream.", "anchors": ["src/backy/rbd/rbd.py:RBDDiffV1.read_record", "src/backy/rbd/rbd.py:RBDDiffV1.read_w", "src/backy/rbd/rbd.py:RBDDiffV1.integrate"]}
{"id": "C11", "title": "Integrating a diff produces the new image", "statement": "If the diff between two snapshots resizes to the new size and its data/zero records describe every position at which the two differ, integrating it into a copy of the old image yields exactly the new image.", "quantifier": "all old/new images of any sizes, all record orders", "why_tests_cant": "All pairs of images.", "anchors": ["src/backy/rbd/rbd.py:RBDDiffV1.integrate", "src/backy/utils.py:punch_hole", "src/backy/utils.py:_fake_fallocate", "src/backy/rbd/chunked/file.py:File.seek", "src/backy/rbd/chunked/file.py:File.write"]}
{"id": "C12", "title": "A diff for other snapshots or with misplaced records is rejected", "statement": "Integrating a stream whose from- or to-snapshot differs from the expected one, that has an unknown record type, or that has metadata records after data records, raises an error.", "quantifier": "all streams", "why_tests_cant": "All malformed streams.", "anchors": ["src/backy/rbd/rbd.py:RBDDiffV1.integrate", "src/backy/rbd/rbd.py:RBDDiffV1.read_record", "src/backy/rbd/rbd.py:RBDDiffV1.read_f", "src/backy/rbd/rbd.py:RBDDiffV1.read_t", "src/backy/rbd/rbd.py:RBDDiffV1.read_s"]}
{"id": "C13", "title": "Every completed revision restores to the image at its snapshot", "statement": "After any history of guest writes, full and incremental backups, removals, expiry, distrust, verification and garbage collection, every complete local revision restores to exactly the bytes the source image had when that revision's snapshot was taken.", "quantifier": "all histories of operations, all image contents, full and incremental backups chosen by the code itself", "why_tests_cant": "The chain of incremental backups and removals is unbounded; one wrong parent choice corrupts all later revisions.", "anchors": ["src/backy/rbd/__init__.py:RBDSource.backup", "src/backy/rbd/__init__.py:CephRBD.get_parent", "src/backy/rbd/__init__.py:CephRBD.diff", "src/backy/rbd/__init__.py:CephRBD.full", "src/backy/rbd/__init__.py:RBDSource.open", "src/backy/rbd/__init__.py:RBDSource.gc", "src/backy/revision.py:Revision.get_parent"]}
{"id": "C14", "title": "Parent choice is sound and terminates", "statement": "The base chosen for an incremental backup is always a revision of the same server that is not distrusted, whose snapshot still exists and that is older in the history than the new revision; if none exists a full backup is done; the search always terminates.", "quantifier": "all histories, trust states and snapshot sets", "why_tests_cant": "A loop over an arbitrary history; non-termination would hang the job.", "anchors": ["src/backy/rbd/__init__.py:CephRBD.get_parent", "src/backy/revision.py:Revision.get_parent"]}
{"id": "C15", "title": "Distrust forces chunks to be rewritten", "statement": "When any complete local revision is distrusted, the next backup rewrites every chunk it stores instead of relying on existing chunk files.", "quantifier": "all repositories containing a distrusted local revision", "why_tests_cant": "Only visible when an existing chunk file is corrupt in exactly the place the sampled verification does not look.", "anchors": ["src/backy/repository.py:Repository.contains_distrusted", "src/backy/rbd/__init__.py:RBDSource.open", "src/backy/rbd/chunked/chunk.py:Chunk.flush"]}
{"id": "C16", "title": "Only verified backups become complete revisions", "statement": "A backup run that reports success leaves its revision complete, and one that fails verification or hits a backend error leaves no complete revision behind; the process exit code is 0 exactly when the backup was verified.", "quantifier": "all outcomes of snapshotting, export, storage and verification", "why_tests_cant": "All failure points.", "anchors": ["src/backy/rbd/__init__.py:RBDSource.backup", "src/backy/source.py:Source.main", "src/backy/revision.py:Revision.remove", "src/backy/revision.py:Revision.write_info"]}
{"id": "C17", "title": "A backend error distrusts all local revisions", "statement": "If reading or writing stored data fails with a backend error during a backup, every local revision that remains in the repository is marked distrusted (until verified) and remote revisions are untouched.", "quantifier": "all histories, all failing chunks", "why_tests_cant": "All histories.", "anchors": ["src/backy/rbd/__init__.py:RBDSource.backup", "src/backy/repository.py:Repository.distrust"]}
{"id": "C18", "title": "Foreign snapshots are never deleted and the reusable snapshot is kept", "statement": "Finishing a backup deletes only snapshots created by backy, never one of another owner, and keeps the snapshot of the newest valid revision so that the next backup can be incremental even if this backup failed verification.", "quantifier": "all snapshot lists, all backup outcomes", "why_tests_cant": "All snapshot name sets and outcomes.", "anchors": ["src/backy/rbd/__init__.py:CephRBD._delete_old_snapshots", "src/backy/rbd/__init__.py:CephRBD.__exit__"]}
{"id": "C19", "title": "Verified means every chunk was readable", "statement": "Verifying a revision marks it verified only if every chunk it references is readable with the recorded hash or belongs to an already verified revision; otherwise the revision is removed. No chunk of a verified revision is deleted, and no revision that stays trusted loses a chunk.", "quantifier": "all stores and corruption patterns, all sets of revisions", "why_tests_cant": "All corruption patterns and sharing.", "anchors": ["src/backy/rbd/__init__.py:RBDSource.verify", "src/backy/rbd/chunked/chunk.py:Chunk._read_existing"]}
{"id": "C20", "title": "Restore reproduces the revision whatever the target held", "statement": "Restoring to a file leaves the target byte-identical to the revision, regardless of the target's earlier content and length; restoring to stdout emits exactly these bytes.", "quantifier": "all images, all previous target contents", "why_tests_cant": "All lengths relative to block size and target size.", "anchors": ["src/backy/utils.py:copy", "src/backy/rbd/__init__.py:RBDSource.restore_file", "src/backy/rbd/__init__.py:RBDSource.restore_stdout"]}
{"id": "C21", "title": "copy_overwrite makes the target equal to the source", "statement": "Overwriting a target with a source leaves the target byte-identical to the source while not rewriting blocks that are already equal, whatever the old target content and length and wherever zero blocks lie.", "quantifier": "all sources, targets and block sizes", "why_tests_cant": "All alignments of holes, block borders and ends.", "anchors": ["src/backy/utils.py:copy_overwrite", "src/backy/utils.py:punch_hole"]}
{"id": "C22", "title": "Full comparison is exact", "statement": "The full file comparison returns true exactly if both files have identical content and otherwise reports at least one mismatch whose reported offset is where the blocks differ.", "quantifier": "all pairs of files", "why_tests_cant": "All pairs.", "anchors": ["src/backy/utils.py:files_are_equal"]}
{"id": "C23", "title": "Sampled verification never rejects equal images and catches differing samples", "statement": "The sampled comparison returns true for identical images for every sample and timing; it returns false whenever a block examined before the time limit differs, reports that block, and every byte of the source can be examined by some sample.", "quantifier": "all images, samples and clocks", "why_tests_cant": "All samples and clocks; the gap is at the unaligned tail.", "anchors": ["src/backy/utils.py:files_are_roughly_equal", "src/backy/rbd/__init__.py:CephRBD.verify"]}
{"id": "C24", "title": "The next slot is the first one after now", "statement": "For a positive interval the next scheduled time is strictly after the reference time, congruent to the job's spread modulo the interval, and is the smallest such time, except that a slot closer to the reference time than the 2^51-th part of the time since the year 1 (28 microseconds today) may be passed over because of rounding; for reference times at whole seconds it is exactly the smallest such time.", "quantifier": "all reference times, intervals > 0 and spreads", "why_tests_cant": "Arithmetic over all times; off-by-one at slot borders.", "anchors": ["src/backy/schedule.py:next_in_interval"]}
{"id": "C25", "title": "Missed tags are caught up", "statement": "The next run of a job includes every schedule tag for which no complete revision is younger than the tag's interval; if the repository is not empty the run happens at the latest five minutes from now, and a run never happens later than the next regular slot.", "quantifier": "all schedules, histories, clocks and spreads", "why_tests_cant": "All combinations of tags, histories and clocks.", "anchors": ["src/backy/schedule.py:Schedule.next", "src/backy/schedule.py:Schedule._missed", "src/backy/schedule.py:Schedule._next_ideal", "src/backy/repository.py:Repository.last_by_tag"]}
{"id": "C26", "title": "Expiry keeps the newest `keep` revisions and everything younger than keep*interval", "statement": "Expiry never removes a schedule tag from one of the `keep` newest revisions carrying it, nor from a revision that is younger than keep*interval; consequently such revisions are not removed.", "quantifier": "all histories, schedules with keep >= 1, clocks", "why_tests_cant": "All histories.", "anchors": ["src/backy/schedule.py:Schedule.expire", "src/backy/repository.py:Repository.find_revisions"]}
{"id": "C27", "title": "Expiry removes exactly what is due", "statement": "Expiry removes a schedule tag from precisely those revisions that are outside the keep newest and older than keep*interval, removes every tag unknown to the schedule, never touches manual: tags, never adds a tag and never changes anything but tags.", "quantifier": "all histories, schedules and clocks", "why_tests_cant": "All histories.", "anchors": ["src/backy/schedule.py:Schedule.expire", "src/backy/revision.py:filter_schedule_tags"]}
{"id": "C28", "title": "A revision disappears on expiry exactly when no tag is left", "statement": "Expiry deletes a local revision exactly if none of its tags remain; for a revision of another server only its tags are emptied and the revision stays known; the list of removed revisions is returned.", "quantifier": "all histories and schedules", "why_tests_cant": "All histories.", "anchors": ["src/backy/schedule.py:Schedule.expire", "src/backy/revision.py:Revision.remove"]}
{"id": "C29", "title": "Expiry is idempotent and restartable", "statement": "Running expiry twice at the same time is the same as running it once, and expiry interrupted after any of its metadata writes and then repeated (at the same or a later time) ends in the same state as an uninterrupted run at that later time.", "quantifier": "all histories, schedules, crash points and restart times", "why_tests_cant": "All crash points.", "anchors": ["src/backy/schedule.py:Schedule.expire", "src/backy/revision.py:Revision.write_info"]}
{"id": "C30", "title": "SLA reporting is exact", "statement": "The SLA is reported violated exactly if there is a complete revision and the newest one is older than 1.5 times the shortest interval; a job whose backups run at the computed times never violates it.", "quantifier": "all histories, schedules and clocks", "why_tests_cant": "All clocks and histories.", "anchors": ["src/backy/repository.py:Repository.sla_overdue", "src/backy/cli/__init__.py:Command.check", "src/backy/schedule.py:Schedule.next"]}
{"id": "C31", "title": "Durations are parsed as documented", "statement": "A duration written as a decimal number with suffix s, m, h, d, w or none means that number of seconds, minutes, hours, days, weeks or seconds.", "quantifier": "all natural numbers, all suffixes", "why_tests_cant": "All numbers.", "anchors": ["src/backy/schedule.py:parse_duration"]}
{"id": "C32", "title": "Retry backoff is bounded and resets", "statement": "After the n-th consecutive failure the job waits min(2^n, 360) minutes before retrying; the waiting time never decreases while failures continue, never exceeds 6 hours and is reset by a success.", "quantifier": "all sequences of failures and successes", "why_tests_cant": "All sequences.", "anchors": ["src/backy/daemon/scheduler.py:Job.run_forever"]}
{"id": "C33", "title": "Scanning yields a sorted, duplicate-free, stable history", "statement": "The history after a scan is ordered oldest first, contains each revision id once and, up to order of equal timestamps, depends only on the set of metadata files and not on the directory order; symlinks are ignored; scanning twice is the same as scanning once.", "quantifier": "all directory contents and listing orders", "why_tests_cant": "All listing orders.", "anchors": ["src/backy/repository.py:Repository.scan"]}
{"id": "C34", "title": "Revision metadata survives a write/read cycle", "statement": "A revision's id, time, statistics, trust, tags, original tags and server are the same after its metadata is written and read again; missing optional fields get the documented defaults.", "quantifier": "all revisions", "why_tests_cant": "All field values.", "anchors": ["src/backy/revision.py:Revision.to_dict", "src/backy/revision.py:Revision.from_dict"]}
{"id": "C35", "title": "Tag changes are conditional and all-or-nothing", "statement": "A tag change with an expectation changes nothing and reports failure if any selected revision has other tags; otherwise exactly the selected revisions get the new tags (set, add or remove as requested), unknown tags are rejected before any change, and with autoremove revisions left without tags are removed.", "quantifier": "all repositories, selections, tag sets and expectations", "why_tests_cant": "All selections.", "anchors": ["src/backy/repository.py:Repository.tags", "src/backy/repository.py:Repository.validate_tags"]}
{"id": "C36", "title": "Revision numbers, ids and keywords resolve as documented", "statement": "`n` selects the n-th newest revision, `last`/`latest` the newest, `first` the oldest, an id the revision with this id; anything that matches nothing, a negative number and an empty repository raise a lookup error.", "quantifier": "all histories and specs", "why_tests_cant": "All histories.", "anchors": ["src/backy/repository.py:Repository.find", "src/backy/repository.py:Repository.find_by_number", "src/backy/repository.py:Repository.find_by_tag", "src/backy/repository.py:Repository.find_by_uuid"]}
{"id": "C37", "title": "Revision expressions mean what the manual says", "statement": "Every expression built from selectors, parentheses, first/last/not/reverse, ranges, & and , evaluates to the documented list: functions apply to their argument, & is order-preserving intersection and binds tighter than the duplicate-free , union; results contain only revisions of the history.", "quantifier": "all expressions of any nesting depth, all histories", "why_tests_cant": "Unbounded expressions; the evaluator rewrites token lists from the last parenthesis.", "anchors": ["src/backy/repository.py:Repository.find_revisions", "src/backy/utils.py:unique", "src/backy/utils.py:duplicates", "src/backy/utils.py:list_rindex", "src/backy/utils.py:list_split"]}
{"id": "C38", "title": "Ranges are inclusive, oldest first, and accept dates", "statement": "A range a..b of revisions or ISO dates selects exactly the revisions between the two end points inclusively, oldest first, in whichever order the end points are given.", "quantifier": "all histories, end points and dates", "why_tests_cant": "The failing date is exactly one point of a continuum.", "anchors": ["src/backy/repository.py:Repository.find_revisions", "src/backy/repository.py:Repository.index_by_token", "src/backy/repository.py:Repository.index_by_date"]}
{"id": "C39", "title": "Cleaning removes only incomplete local revisions", "statement": "Cleaning up removes exactly the incomplete local revisions; a complete revision or one of another server is never removed, also when other backy processes run at the same time.", "quantifier": "all repositories and all interleavings with another process", "why_tests_cant": "The dangerous interleaving spans a wait of hours between reading the directory and cleaning.", "anchors": ["src/backy/repository.py:Repository._clean", "src/backy/daemon/scheduler.py:Job.run_forever", "src/backy/cli/__init__.py:Command.backup"]}
{"id": "C40", "title": "Locks exclude conflicting operations", "statement": "At no time do two processes hold the same lock of a repository unless both hold it shared; at most one backup runs per repository, gc never overlaps a backup, restore or verify of other processes, and a process that cannot get an exclusive lock changes nothing.", "quantifier": "all interleavings of any number of processes", "why_tests_cant": "All interleavings.", "anchors": ["src/backy/repository.py:Repository.lock", "src/backy/repository.py:Repository.locked", "src/backy/rbd/__init__.py:RBDSource.backup", "src/backy/rbd/__init__.py:RBDSource.gc", "src/backy/rbd/__init__.py:RBDSource.verify"]}
{"id": "C41", "title": "Concurrent backup and cleanup never lose data", "statement": "However backups, gc and verify of several processes are interleaved, no chunk referenced by a revision that completes or has completed is deleted.", "quantifier": "all interleavings of backup, gc and verify", "why_tests_cant": "Requires a particular interleaving with stale in-memory history.", "anchors": ["src/backy/rbd/__init__.py:RBDSource.gc", "src/backy/rbd/__init__.py:RBDSource.verify", "src/backy/rbd/__init__.py:RBDSource.backup", "src/backy/source.py:Source.main"]}
{"id": "C42", "title": "Metadata synchronisation holds the backup lock", "statement": "While revision metadata is pulled from or pushed to peers no other process can modify the repository's metadata.", "quantifier": "all interleavings", "why_tests_cant": "Lock is taken and released around creating, not running, the coroutine.", "anchors": ["src/backy/daemon/scheduler.py:Job.pull_metadata", "src/backy/daemon/scheduler.py:Job.push_metadata", "src/backy/repository.py:Repository.locked"]}
{"id": "C43", "title": "Metadata writes are crash-atomic", "statement": "Whenever the process or machine stops while metadata (revision, config or report) is written, the file afterwards has either the complete old or the complete new content; if writing raises, the old content is kept and the temporary file is removed.", "quantifier": "all old/new contents and crash points", "why_tests_cant": "All crash points.", "anchors": ["src/backy/utils.py:SafeFile", "src/backy/revision.py:Revision.write_info", "src/backy/source.py:CmdLineSource.store"]}
{"id": "C44", "title": "A revision reported complete survives power loss", "statement": "If the machine loses power at any time, every revision whose metadata says it is complete has all its chunk data on disk.", "quantifier": "all crash points of a backup, all subsets of unsynced data that may be lost", "why_tests_cant": "Needs a power failure between two system calls.", "anchors": ["src/backy/rbd/__init__.py:RBDSource.backup", "src/backy/rbd/chunked/chunk.py:Chunk.flush", "src/backy/rbd/chunked/file.py:File.flush"]}
{"id": "C45", "title": "A killed backup never damages later ones", "statement": "If a backup process is killed at any point, all chunk files present under their final name are complete, complete revisions are unaffected, and the next backup of the repository is correct.", "quantifier": "all kill points", "why_tests_cant": "All kill points.", "anchors": ["src/backy/rbd/chunked/chunk.py:Chunk.flush", "src/backy/rbd/__init__.py:RBDSource.backup", "src/backy/repository.py:Repository._clean"]}
{"id": "C46", "title": "Every API request is authenticated", "statement": "A request whose Authorization header is not `Bearer ` followed by a configured token of a named client gets 401 and has no effect, for every route.", "quantifier": "all headers, token tables and routes", "why_tests_cant": "All headers.", "anchors": ["src/backy/daemon/api.py:BackyAPI.require_auth"]}
{"id": "C47", "title": "Peers can only change inactive repositories, conditionally", "statement": "The API changes tags or requests a purge only for repositories that are not an active job (403/404 otherwise); a tag change is applied only if the old tags match (412), the revision exists (404) and the repository is not locked (503).", "quantifier": "all daemon states and requests", "why_tests_cant": "All combinations.", "anchors": ["src/backy/daemon/api.py:BackyAPI.put_tags", "src/backy/daemon/api.py:BackyAPI.run_purge", "src/backy/daemon/api.py:BackyAPI.get_backup"]}
{"id": "C48", "title": "Pulling mirrors the peer", "statement": "After a successful pull the set of revisions known for that peer, their times, tags, trust and statistics are exactly those the peer reported, revisions of removed peers are gone, and pulling again changes nothing.", "quantifier": "all local and remote histories", "why_tests_cant": "All pairs of histories.", "anchors": ["src/backy/daemon/scheduler.py:Job._pull_metadata_single", "src/backy/daemon/scheduler.py:Job.pull_metadata", "src/backy/daemon/api.py:Client.get_revs"]}
{"id": "C49", "title": "Pulling never touches local revisions", "statement": "Pulling metadata from a peer never changes or removes a revision whose data is stored on this server.", "quantifier": "all local and remote histories including equal ids", "why_tests_cant": "Only fails for coinciding ids, e.g. after a repository was copied between servers.", "anchors": ["src/backy/daemon/scheduler.py:Job._pull_metadata_single", "src/backy/revision.py:Revision.info_filename"]}
{"id": "C50", "title": "Pushed tag changes are exactly transferred", "statement": "A successful push sets the tags of the revision on its origin to the local tags if and only if the origin still has the tags last seen; revisions left without tags are removed on both sides; on failure the change stays pending.", "quantifier": "all local and remote states and failures", "why_tests_cant": "All failure combinations.", "anchors": ["src/backy/daemon/scheduler.py:Job._push_metadata_single", "src/backy/daemon/api.py:BackyAPI.put_tags", "src/backy/daemon/api.py:Client.put_tags"]}
{"id": "C51", "title": "Pending tag changes are not lost before being pushed", "statement": "A tag change made locally on a revision of another server stays pending until it has been pushed, also across failed pushes and regular job runs, and temporary errors of the peer do not make known revisions disappear.", "quantifier": "all histories and failure sequences", "why_tests_cant": "Needs a failed push followed by a pull, or an HTTP 5xx during pull.", "anchors": ["src/backy/daemon/scheduler.py:Job.run_forever", "src/backy/daemon/scheduler.py:Job._pull_metadata_single"]}
{"id": "C52", "title": "A backup is skipped only if a peer has just made one", "statement": "A job skips its own backup only if some peer with strictly more revisions reported a backup not older than five minutes before the scheduled time; if peers are unreachable, stopped, not scheduled, or an immediate run is requested, it runs its own backup.", "quantifier": "all peer answers over time", "why_tests_cant": "All answer sequences.", "anchors": ["src/backy/daemon/scheduler.py:Job._wait_for_leader", "src/backy/daemon/scheduler.py:Job.run_forever"]}
{"id": "C53", "title": "The worker limit holds", "statement": "At any time at most worker-limit slow and worker-limit fast backups run, as long as the limit is not changed.", "quantifier": "all schedules of job starts, completions and cancellations", "why_tests_cant": "All interleavings.", "anchors": ["src/backy/daemon/__init__.py:BackyDaemon._apply_config", "src/backy/daemon/scheduler.py:Job.run_forever"]}
{"id": "C54", "title": "Reload makes the jobs match the configuration", "statement": "After a reload the set of jobs is exactly that of the configuration, jobs with unchanged configuration keep running untouched, changed ones are restarted with the new configuration, and directories without a job are listed as inactive.", "quantifier": "all old and new configurations and directory contents", "why_tests_cant": "All pairs of configurations.", "anchors": ["src/backy/daemon/__init__.py:BackyDaemon._apply_config", "src/backy/daemon/__init__.py:BackyDaemon._read_config"]}
{"id": "C55", "title": "Only untouched repositories are purged by age", "statement": "The age-based purge deletes a directory only if neither it nor anything below it was modified within the last 93 days, and does delete it in that case; symbolic links are not followed.", "quantifier": "all directory trees", "why_tests_cant": "All trees.", "anchors": ["src/backy/daemon/__init__.py:BackyDaemon.purge_old_files", "src/backy/utils.py:has_recent_changes"]}
{"id": "C56", "title": "File source backups restore and survive garbage collection", "statement": "A revision made by the file source restores to the source's content at backup time, and garbage collection removes no metadata or data of revisions in the history.", "quantifier": "all repositories, file contents and histories", "why_tests_cant": "All histories.", "anchors": ["src/backy/file/__init__.py:FileSource.backup", "src/backy/file/__init__.py:FileSource.restore", "src/backy/file/__init__.py:FileSource.gc"]}
{"id": "C57", "title": "Monitoring exit codes", "statement": "`backy check` exits 2 if the SLA is violated, else 1 if problem reports exist, else 0; over several repositories the worst code is returned and any unexpected error gives 1.", "quantifier": "all repository states and lists", "why_tests_cant": "All combinations.", "anchors": ["src/backy/cli/__init__.py:Command.check", "src/backy/cli/__init__.py:Command.__call__"]}
{"id": "C58", "title": "Stale snapshot requests are cleaned up", "statement": "Creating a snapshot through the coordination service leaves none of this VM's backy requests behind and keeps all requests of others; garbage entries are removed and do not make the backup fail.", "quantifier": "all key-value contents and polling outcomes", "why_tests_cant": "All contents.", "anchors": ["src/backy/rbd/__init__.py:CephRBD.create_snapshot"]}
{"id": "C59", "title": "Problem reports are kept and can be deleted", "statement": "Each mismatch found during verification yields a stored report with both differing blocks kept unmodified; existing reports and blocks are never overwritten, and deleting reports removes exactly the selected ones.", "quantifier": "all sequences of reports", "why_tests_cant": "All sequences.", "anchors": ["src/backy/report.py:ChunkMismatchReport.store", "src/backy/report.py:ProblemReport.store", "src/backy/cli/__init__.py:Command.reports_delete"]}
{"id": "C60", "title": "A failed transfer from Ceph never yields a complete revision", "statement": "If the process that exports the image or the difference to the base ends before the end of its output, the backup does not exit with 0 and leaves no complete revision.", "quantifier": "all images, diffs and positions at which the output ends", "why_tests_cant": "All cut positions.", "anchors": ["src/backy/rbd/__init__.py:CephRBD.full", "src/backy/rbd/__init__.py:CephRBD.diff", "src/backy/rbd/rbd.py:RBDClient.export", "src/backy/rbd/rbd.py:RBDClient.export_diff"]}
{"id": "C61", "title": "A purge requested for an inactive repository is carried out", "statement": "When a purge is pending for a repository without a configured job, the daemon runs garbage collection there and clears the mark; repositories without the mark are left alone.", "quantifier": "all sets of inactive repositories and marks", "why_tests_cant": "All sets; the existing test replaces the garbage collection.", "anchors": ["src/backy/daemon/__init__.py:BackyDaemon.purge_pending_backups", "src/backy/daemon/scheduler.py:Job.run_gc"]}
{"id": "C62", "title": "A job keeps being scheduled whatever fails", "statement": "Whatever fails in one run of a job, the job plans its next run.", "quantifier": "all sequences of failures", "why_tests_cant": "All failures at every step of every run.", "anchors": ["src/backy/daemon/scheduler.py:Job.run_forever"]}
{"id": "C63", "title": "Schedule changes take effect everywhere after a reload", "statement": "After a reload that changes the definition of a schedule, the daemon and every command for a repository using it act on the new definition.", "quantifier": "all sequences of configurations", "why_tests_cant": "All sequences of configurations.", "anchors": ["src/backy/daemon/__init__.py:BackyDaemon._read_config", "src/backy/daemon/__init__.py:BackyDaemon._apply_config", "src/backy/daemon/scheduler.py:Job.configure", "src/backy/source.py:CmdLineSource.store"]}
{"id": "C64", "title": "Locks never deadlock and are never left behind", "statement": "A process that waits for a lock of a repository always gets it once the others finish what they are doing, there is no cycle of waiting processes, and neither a finished nor a killed process leaves a lock behind.", "quantifier": "all interleavings of any number of processes and all kill times", "why_tests_cant": "All interleavings and kill times.", "anchors": ["src/backy/repository.py:Repository.lock", "src/backy/repository.py:Repository.locked"]}
{"id": "C65", "title": "Concurrent metadata changes are not undone", "statement": "A change of a revision's metadata (tags, removal, distrust) by one process is never undone by another process that works on the repository at the same time.", "quantifier": "all interleavings of any number of processes", "why_tests_cant": "Verification runs for hours between reading and writing the metadata.", "anchors": ["src/backy/rbd/__init__.py:RBDSource.verify", "src/backy/repository.py:Repository.tags", "src/backy/repository.py:Repository.rm", "src/backy/revision.py:Revision.write_info"]}
{"id": "C66", "title": "Migrating an old chunk store loses nothing", "statement": "When a store with an older directory layout is opened it is converted: however often the conversion is interrupted and started again no chunk file is lost or changed, and once a start has succeeded every chunk is found where the code looks for it.", "quantifier": "all store contents, interruption points and numbers of restarts", "why_tests_cant": "All interruption points of all stores.", "anchors": ["src/backy/rbd/chunked/store.py:Store.__init__", "src/backy/rbd/chunked/store.py:Store.convert_to_v2"]}
{"id": "C67", "title": "Exit codes of rm, tags, distrust and restore tell the outcome", "statement": "backy rm, tags, distrust (of local revisions) and restore give 0 exactly if they did what was asked on exactly the selected revisions; if the selection is invalid, the expected tags do not match or somebody else holds the lock they give 1 and nothing has changed.", "quantifier": "all repositories, revision specifications, tags and lock states", "why_tests_cant": "All repositories and specifications.", "anchors": ["src/backy/cli/__init__.py:Command.__call__", "src/backy/cli/__init__.py:Command.rm", "src/backy/cli/__init__.py:Command.tags", "src/backy/cli/__init__.py:Command.distrust", "src/backy/cli/__init__.py:Command.restore", "src/backy/source.py:Source.main"]}
{"id": "C68", "title": "Commands that only read change nothing", "statement": "backy rev-parse, log and restore leave revisions, chunks, mappings, snapshots and the image as they were, whether they succeed or fail.", "quantifier": "all repositories, arguments and failures", "why_tests_cant": "All repositories and arguments.", "anchors": ["src/backy/cli/__init__.py:Command.rev_parse", "src/backy/cli/__init__.py:Command.log_", "src/backy/cli/__init__.py:Command.restore"]}
{"id": "C69", "title": "A failed foreground backup leaves no incomplete revision", "statement": "When a backup started with backy backup has failed and the command has ended, no incomplete local revision is left.", "quantifier": "all repositories and failures", "why_tests_cant": "All failures.", "anchors": ["src/backy/cli/__init__.py:Command.backup", "src/backy/repository.py:Repository._clean"]}
{"id": "C70", "title": "A dry run changes nothing", "statement": "With the option -n no command changes a repository.", "quantifier": "all commands and repositories", "why_tests_cant": "All commands.", "anchors": ["src/backy/cli/__init__.py:Command.__init__", "src/backy/cli/__init__.py:main"]}
{"id": "C71", "title": "Tags on the command line are read exactly", "statement": "A list of tags separated by commas, with any white space around each tag, is read as exactly these tags; the result never contains a comma or surrounding white space, and no text stands for the empty set (the empty text is one tag with an empty name).", "quantifier": "all texts", "why_tests_cant": "All texts.", "anchors": ["src/backy/cli/__init__.py:Command.tags", "src/backy/cli/__init__.py:Command.backup"]}
{"id": "C72", "title": "--jobs works on exactly the selected jobs", "statement": "A command with --jobs that selects no job (no answer, no jobs, invalid expression, no match) gives 1 and changes nothing; the directory of a job that is not selected never changes; if the exit code is 0 the command has been carried out successfully for every selected job.", "quantifier": "all answers of the daemon, expressions and commands", "why_tests_cant": "All sets of jobs.", "anchors": ["src/backy/cli/__init__.py:Command.get_repos", "src/backy/cli/__init__.py:Command.__call__"]}
{"id": "C73", "title": "Exit codes of verify and gc tell the outcome", "statement": "backy verify gives 0 exactly if every selected revision could be verified; backy gc gives 0 exactly if the unused chunks have been removed.", "quantifier": "all repositories, specifications, damaged chunks and lock states", "why_tests_cant": "All repositories.", "anchors": ["src/backy/cli/__init__.py:Command.verify", "src/backy/cli/__init__.py:Command.gc", "src/backy/source.py:Source.main"]}
{"id": "C74", "title": "Damaged data is never restored", "statement": "After any history of backups, removals, tag changes, verifications, garbage collections, crashes and damage to the stored data (chunk files lost, unreadable or with other content, mapping files lost or unreadable), restoring a complete local revision to a file or to standard output either fails or has produced exactly the image its snapshot held when it was taken - also if the revision was taken incrementally, from a parent that was damaged at the time.", "quantifier": "all histories, all damage between the events, all complete revisions and previous contents of the target", "why_tests_cant": "All combinations of damage and operations.", "anchors": ["src/backy/rbd/__init__.py:RBDSource.restore", "src/backy/rbd/__init__.py:RBDSource.backup", "src/backy/rbd/chunked/chunk.py:Chunk._read_existing", "src/backy/rbd/chunked/store.py:Store"]}
{"id": "C75", "title": "Damage elsewhere does not prevent a restore", "statement": "In such a history a complete local revision whose mapping file is readable and whose own chunks are intact restores to exactly the image its snapshot held, whatever else is damaged.", "quantifier": "all histories, all damage, all complete revisions", "why_tests_cant": "All combinations of damage and operations.", "anchors": ["src/backy/rbd/__init__.py:RBDSource.restore", "src/backy/rbd/chunked/chunk.py:Chunk._read_existing"]}
{"id": "C76", "title": "A revision marked by a verification of all its chunks restores", "statement": "In such a history, if no revision counts as verified and a verification of a complete local revision ends without an error, then either the metadata of the revision is gone or it is marked as verified and restoring it gives exactly the image its snapshot held.", "quantifier": "all histories, all damage, all complete revisions and orders in which chunks are checked", "why_tests_cant": "All combinations of damage and operations.", "anchors": ["src/backy/rbd/__init__.py:RBDSource.verify", "src/backy/rbd/__init__.py:RBDSource.restore"]}
{"id": "C77", "title": "The status report is exact", "statement": "The status report of the daemon (client, web interface, other servers) has exactly one entry for each job whose name matches the filter, in order; each entry is right about the metadata in the job's directory at that moment: number of complete revisions of this server, time, duration and tags (shortest interval first) of the newest complete revision of any server, number of complete revisions of other servers with changed tags, manual tags, SLA. The request fails exactly if a matching job that has a complete revision has a schedule without tags.", "quantifier": "all jobs, directories, schedules, filters and clocks", "why_tests_cant": "All states of all repositories.", "anchors": ["src/backy/daemon/__init__.py:BackyDaemon.status", "src/backy/daemon/api.py:BackyAPI.get_status", "src/backy/repository.py:StatusDict"]}
{"id": "C78", "title": "A skipped backup exists elsewhere", "statement": "If a job whose name contains no character that is special in a regular expression neither attempts its backup nor was told to run, and the peers answer according to their directories, then the repository of the same job at some peer held a complete revision that is newer than five minutes before the scheduled time.", "quantifier": "all peers, states of their jobs over time, answers and failures", "why_tests_cant": "All states of several servers.", "anchors": ["src/backy/daemon/scheduler.py:Job._wait_for_leader", "src/backy/daemon/__init__.py:BackyDaemon.status", "src/backy/daemon/api.py:APIClient.fetch_status"]}
{"id": "C79", "title": "Restores and verifications are not disturbed by others", "statement": "While a complete local revision is being restored or verified, any number of backups, expirations, tag changes, garbage collections and crashes of such processes may happen to the repository between any two accesses to chunk files; as long as the revision itself is not removed, the restore gives exactly the content its snapshot held, and the verification finds nothing wrong.", "quantifier": "all histories before and during the operation, all interleavings at the granularity of file accesses", "why_tests_cant": "All interleavings.", "anchors": ["src/backy/rbd/__init__.py:RBDSource.restore", "src/backy/rbd/__init__.py:RBDSource.verify", "src/backy/rbd/chunked/chunk.py:Chunk._read_existing"]}
{"id": "C80", "title": "A run of a job does its steps in order and stops at the first failure", "statement": "A run of a job that could be planned makes the backup (with exactly the planned tags), pulls the metadata of the peers, expires, pushes, collects garbage and calls back, in this order; a run that leaves the backup to a peer only pulls and calls back. Nothing is done after the first step that fails, and if none fails all of them are done.", "quantifier": "all runs, whatever fails, whatever the peers answer", "why_tests_cant": "All combinations of failures.", "anchors": ["src/backy/daemon/scheduler.py:Job.run_forever", "src/backy/daemon/scheduler.py:Job.run_backup", "src/backy/daemon/scheduler.py:Job.run_callback"]}
{"id": "C81", "title": "A completed revision carries what was requested", "statement": "A revision that a backup leaves complete has exactly the requested id, time and tags, belongs to this server, has no pending tag change, is trusted and has a duration.", "quantifier": "all repositories, whatever rbd does", "why_tests_cant": "All repositories and behaviours of rbd.", "anchors": ["src/backy/rbd/__init__.py:RBDSource.backup", "src/backy/source.py:Source.main", "src/backy/cli/__init__.py:Command.backup", "src/backy/revision.py:Revision.create"]}
{"id": "C82", "title": "Waiting for a peer is not circular", "statement": "The peer because of which a job waits or skips its backup has more complete revisions than the job itself, and no other peer that answered has more. If all answers are right about the number of revisions, servers never wait for each other in a circle, and at least one server of every cluster makes its own backup, whatever it is told while it waits.", "quantifier": "all clusters, answers, failures and timings", "why_tests_cant": "All clusters.", "anchors": ["src/backy/daemon/scheduler.py:Job._wait_for_leader"]}
{"id": "C83", "title": "A backup leaves other revisions alone", "statement": "A backup never changes the metadata of a revision of another server; of another complete revision of this server it changes at most the trust; and if nothing is damaged it removes no complete revision, whatever rbd exports and whatever fails.", "quantifier": "all repositories, histories and behaviours of rbd", "why_tests_cant": "All histories.", "anchors": ["src/backy/rbd/__init__.py:RBDSource.backup", "src/backy/rbd/__init__.py:RBDSource.verify", "src/backy/repository.py:Repository.distrust"]}
{"id": "C84", "title": "A request to run a job now is carried out", "statement": "A request to run a job now is accepted exactly if the job exists. Then, unless its scheduled time comes at the same moment, the job queues for a worker slot to make its own backup before it next gets through a wait for its scheduled time, leaving at most the run it is already in to a peer, also if it is restarted because its configuration changed; it can always get there; and a job never runs outside its schedule more often than it was asked to.", "quantifier": "all interleavings of requests, timers, answers of peers, restarts and the job", "why_tests_cant": "All interleavings.", "anchors": ["src/backy/daemon/api.py:BackyAPI.run_job", "src/backy/daemon/scheduler.py:Job._wait_for_deadline", "src/backy/daemon/scheduler.py:Job._wait_for_leader", "src/backy/daemon/scheduler.py:Job.run_forever", "src/backy/utils.py:delay_or_event"]}
{"id": "C85", "title": "Backups in time keep the SLA", "statement": "If the runs of a job succeed, start within a delay d1 of their planned time and take at most d2 (until the next run is planned), and d1 + 2 d2 + 1 s is at most half of the shortest interval of the schedule, then the SLA is reported as held at every moment after the first backup, also while expiry is at work.", "quantifier": "all schedules, directories, clocks, spreads and numbers of runs", "why_tests_cant": "All timelines; the parts (planning, expiry, SLA) are tested separately.", "anchors": ["src/backy/schedule.py:Schedule.next", "src/backy/schedule.py:Schedule.expire", "src/backy/repository.py:Repository.sla_overdue", "src/backy/daemon/scheduler.py:Job.run_forever"]}
{"id": "C86", "title": "Every tag of the schedule comes back", "statement": "If the runs of a job succeed, start within a delay d1 of their planned time and take at most d2, then after the first run there is always, for every tag of the schedule, a complete revision that carries the tag and is not older than the interval of the tag, two shortest intervals, twice d1, twice d2 and two seconds - whatever the directory contained at first.", "quantifier": "all schedules, directories, clocks, spreads and numbers of runs", "why_tests_cant": "All timelines.", "anchors": ["src/backy/schedule.py:Schedule.next", "src/backy/schedule.py:Schedule.expire", "src/backy/daemon/scheduler.py:Job.run_forever"]}
{"id": "C87", "title": "The number of revisions stays bounded", "statement": "A job whose runs succeed and start less than an interval late has after every run at most 3 keep + 2 of its own revisions with a tag whose schedule entry says keep; starting with an empty directory, it never has more revisions after a run than the sum of these numbers, however long it runs.", "quantifier": "all schedules, spreads, clocks, and numbers of runs", "why_tests_cant": "Unbounded histories.", "anchors": ["src/backy/schedule.py:Schedule.next", "src/backy/schedule.py:Schedule.expire", "src/backy/daemon/scheduler.py:Job.run_forever"]}
{"id": "C88", "title": "The block device of a snapshot is given back", "statement": "To compare a backup with its snapshot, the snapshot is mapped as a block device. With an honest mapping list the comparison gets a device that shows exactly this snapshot (same pool, image and snapshot). Whatever the comparison does, the device it got is unmapped afterwards, no other device is ever unmapped, and a failure to unmap is reported. If the snapshot was not mapped before, the mapped devices of the host are the same before and after; the only exception is a failure before the comparison starts, which leaves the new device mapped - on releases of Ceph after Nautilus this happens every time.", "quantifier": "all hosts, outputs and failures of the rbd commands, comparisons", "why_tests_cant": "All combinations of outputs and failures of an external program.", "anchors": ["src/backy/rbd/rbd.py:RBDClient.map", "src/backy/rbd/rbd.py:RBDClient.image_reader", "src/backy/rbd/rbd.py:RBDClient.unmap", "src/backy/rbd/__init__.py:CephRBD.verify"]}
{"id": "C89", "title": "Restoring with an external program", "statement": "A restore uses the external program if asked for; without a choice it uses it exactly if the size of the image is a multiple of the chunk size and the program can be started and reports a version beginning with its name. An exit code other than 0 makes the restore fail, and the built-in implementation is not tried. If the program writes the image whenever it exits with 0, then every restore of an intact revision that does not fail has produced exactly the image, and a restore without the program does not fail. The choice of the user reaches the process that restores.", "quantifier": "all images, choices, targets and behaviours of the external program", "why_tests_cant": "All behaviours of an external program.", "anchors": ["src/backy/rbd/__init__.py:RBDSource.restore", "src/backy/rbd/__init__.py:RBDSource.backy_extract_supported", "src/backy/rbd/__init__.py:RBDSource.restore_backy_extract", "src/backy/rbd/__init__.py:RBDRestoreArgs"]}
{"id": "C90", "title": "A failed restore has written only right data", "statement": "After any history with damage to the stored data, a failed restore (built-in implementation) of a complete local revision has left the target file untouched or with a beginning of the right image followed by what was there before, and has emitted to standard output a beginning of the right image and nothing else.", "quantifier": "all histories, all damage, all complete revisions and previous contents of the target", "why_tests_cant": "All combinations of damage and operations.", "anchors": ["src/backy/rbd/__init__.py:RBDSource.restore", "src/backy/rbd/__init__.py:RBDSource.restore_file", "src/backy/rbd/__init__.py:RBDSource.restore_stdout", "src/backy/utils.py:copy"]}
{"id": "C91", "title": "Asking the daemon for backups", "statement": "Asking the daemon to back up several jobs (or one, with --bg) asks for exactly the jobs whose name matches, one after the other in the order of the daemon, and stops at the first request that gets lost or is refused because the job is gone; exactly the jobs asked for so far are told to run now, nothing else changes, and the exit code is 0 exactly if all of them were. If no job matches, nothing is asked for and the exit code is 1. Tags given on the command line have no effect.", "quantifier": "all daemons, jobs, patterns, losses of requests", "why_tests_cant": "All sets of jobs and failures.", "anchors": ["src/backy/cli/__init__.py:Command.backup", "src/backy/cli/__init__.py:Command.get_repos", "src/backy/daemon/api.py:BackyAPI.run_job", "src/backy/daemon/api.py:APIClient.run_job"]}
{"id": "C92", "title": "API settings take effect on reload", "statement": "When the API server waits for the next reload, exactly the tokens of the configuration read last are accepted and requests are answered at exactly its addresses, provided that every address could be opened and no reload came while addresses were being opened or closed. The tokens change at the moment the reload is taken up; a reload always takes effect after finitely many steps; the service at an address that stays configured is not interrupted; and only an accepted request to reload (or a signal) makes the daemon reload, once.", "quantifier": "all sequences of configurations, reloads and outcomes of opening addresses, all interleavings", "why_tests_cant": "All interleavings of reloads and the opening and closing of addresses.", "anchors": ["src/backy/daemon/api.py:BackyAPI.reconfigure", "src/backy/daemon/api.py:BackyAPI.require_auth", "src/backy/daemon/api.py:BackyAPI.reload_daemon", "src/backy/daemon/__init__.py:BackyDaemon.api_server"]}
{"id": "C93", "title": "What the completion callback is told", "statement": "The configured callback is told, after every run of a job, exactly the revisions whose metadata is in the directory then, each once and with the content of its file, whatever peers answer and whatever becomes of the requests to them.", "quantifier": "all directories, backups, answers of peers, losses of requests, schedules", "why_tests_cant": "All combinations of peers, failures and histories.", "anchors": ["src/backy/daemon/scheduler.py:Job.run_callback", "src/backy/daemon/scheduler.py:Job.run_forever", "src/backy/daemon/scheduler.py:Job.pull_metadata", "src/backy/daemon/scheduler.py:Job.push_metadata", "src/backy/repository.py:Repository.connect"]}
{"id": "C94", "title": "The program of the source gets what was asked for", "statement": "If the program that backy restore starts restores anything, then it restores the revision that backy selected, to the target and with the backend that were given. It does so for every RBD target and every normalised path that does not start with a dash (a single dash is standard output); normalising a path does not change where it leads. Arguments that do not fit the type of the repository start nothing. If the program does not understand its arguments, it fails with exit code 2, except that some targets starting with a dash are taken for a request for help, with exit code 0.", "quantifier": "all types of repositories, targets (strings) and backends", "why_tests_cant": "All strings.", "anchors": ["src/backy/source.py:CmdLineSource.restore", "src/backy/source.py:CmdLineSource.run", "src/backy/source.py:Source.main", "src/backy/rbd/__init__.py:RBDRestoreArgs", "src/backy/file/__init__.py:FileRestoreArgs", "src/backy/cli/__init__.py:Command.restore"]}
{"id": "C95", "title": "The exit codes of the program of the source", "statement": "The program of an RBD source exits with 0 or 1. gc exits with 0 exactly if it gets the lock and the mapping file of every local revision is readable, and then exactly the referenced chunks are left; otherwise nothing is deleted. Asked for a revision that does not exist, it exits with 1 and changes nothing. restore exits with 0 exactly if the restore ended without error. If verify of a local revision exits with 0, the revision is marked as verified if every chunk is readable or belongs to a verified revision, and removed otherwise.", "quantifier": "all repositories, revisions, stored data", "why_tests_cant": "All states of a repository, including damaged ones.", "anchors": ["src/backy/source.py:Source.main", "src/backy/rbd/__init__.py:RBDSource.gc", "src/backy/rbd/__init__.py:RBDSource.verify", "src/backy/rbd/__init__.py:RBDSource.restore"]}
{"id": "C96", "title": "Waiting for a snapshot", "statement": "A backup that asked for a snapshot through Consul looks for it at once and then at least two seconds apart, at most 46 times, and always comes to an end: it goes on with the requested snapshot only if a listing has shown it, and takes a snapshot itself only if it has waited for at least 90 seconds and no listing has shown the requested one. If a listing takes at most d and a sleep at most x longer than asked for, waiting takes at most 92 seconds, d and x, and a snapshot that appears at least d before the 90 seconds are over is seen, at most two seconds, x and twice d later.", "quantifier": "all timings of listings and sleeps, all times at which the snapshot appears, all failures of listings", "why_tests_cant": "All timings.", "anchors": ["src/backy/utils.py:TimeOut", "src/backy/rbd/__init__.py:CephRBD.create_snapshot"]}
{"id": "C97", "title": "What show-jobs and show-daemon show", "statement": "With --jobs or -a, backy show-jobs shows exactly the jobs of the daemon whose name matches, each once, described as in C77 and sorted by name, and then the repositories without a job whose name matches; the number at the end is the number of rows. It fails, without output and with exit code 1, exactly if no job matches or the status report fails, and always without --jobs and -a. Jobs that come or go between its requests are not shown. backy show-daemon shows every status that a job has, once and in order, with the number of jobs that have it, repositories without a job as Dead.", "quantifier": "all daemons, jobs, repositories, patterns and answers", "why_tests_cant": "All sets of jobs and histories.", "anchors": ["src/backy/cli/__init__.py:Command.show_jobs", "src/backy/cli/__init__.py:Command.show_daemon", "src/backy/cli/__init__.py:Command.get_repos", "src/backy/daemon/api.py:APIClient.fetch_status", "src/backy/daemon/api.py:BackyAPI.get_status"]}
{"id": "C98", "title": "A single daemon", "statement": "However daemons are started, killed and reloaded on a host, at any time at most one living daemon has started jobs in a base directory, as long as reloads do not change the base directory. A daemon that finds the lock taken ends with exit code 69 without having started a job. As soon as the daemon that has the lock has ended in any way, a new one can take over.", "quantifier": "all sequences of starts, deaths and reloads of any number of daemons, all base directories", "why_tests_cant": "All interleavings of several daemons.", "anchors": ["src/backy/daemon/__init__.py:BackyDaemon.lock", "src/backy/daemon/__init__.py:BackyDaemon.start", "src/backy/daemon/__init__.py:BackyDaemon.reload", "src/backy/daemon/__init__.py:BackyDaemon.terminate"]}
{"id": "C99", "title": "Recovery after an outage", "statement": "However often and in whatever way the runs of a job failed up to some time, the first run that starts after that time starts within six hours (or one shortest interval of the schedule, if this is longer) and the time a run takes and may be delayed. If it succeeds, its revision carries every tag that was missed when the run was planned, and then every tag of the schedule has a complete revision that is this one or was younger than the interval of the tag at planning; the SLA is held for one and a half shortest intervals from its start, and the next run follows the schedule again.", "quantifier": "all schedules, all sequences of failed and successful runs, all histories, all timings", "why_tests_cant": "All histories of failures and all timings.", "anchors": ["src/backy/daemon/scheduler.py:Job.run_forever", "src/backy/schedule.py:Schedule.next", "src/backy/schedule.py:Schedule._missed", "src/backy/schedule.py:Schedule.expire", "src/backy/repository.py:Repository.sla_overdue"]}
{"id": "C100", "title": "A complete revision lasts", "statement": "Once a revision of this server is complete it stays: its record remains on disk with the same timestamp, statistics and server (only tags and trust may change), and restoring it, to any target or to standard output, always yields exactly the bytes of the snapshot it was made from, after any number of later backups (successful, failed, or killed at any time), verifications of any revision, garbage collections (finished or killed), distrusts, tag changes without autoremove, expiries that leave it a tag, removals of other revisions, losses of snapshots and metadata arriving from other servers, as long as the store is not damaged from outside and one process works on it at a time.", "quantifier": "every history that made the revision, every later sequence of such events, every image content, every order in which chunks are verified", "why_tests_cant": "Backups, gc and verification all delete files of a shared chunk store, so that an old revision still restores after any later history is a statement about all histories.", "anchors": ["src/backy/rbd/__init__.py:RBDSource.gc", "src/backy/rbd/__init__.py:RBDSource.backup", "src/backy/rbd/__init__.py:RBDSource.verify", "src/backy/rbd/chunked/store.py:Store.ls", "src/backy/revision.py:Revision.remove", "src/backy/schedule.py:Schedule.expire"]}
{"id": "C101", "title": "A backup changes nothing in Ceph but its own snapshots", "statement": "Whatever rbd and the rest of the system answer, each rbd command a backup gives changes nothing in the cluster but backy's own snapshots of the image: it removes one snapshot whose name begins with backy-, that was listed before and that is not the one of the newest local revision, or it creates the snapshot of the new revision. Other images, the content of the image and snapshots of others are never changed, devices are only mapped read only, and data is only read from the snapshot of the new revision, after it has been created or seen.", "quantifier": "every answer and failure of every rbd command, every outcome of everything else, every repository, names of pools, images and snapshots as Ceph allows them; every command line not documented as harmless may do anything", "why_tests_cant": "The command lines are put together from configuration, metadata and answers of other commands; a wrong one in a rare error path destroys foreign data.", "anchors": ["src/backy/rbd/rbd.py:RBDClient._rbd", "src/backy/rbd/rbd.py:RBDClient.map", "src/backy/rbd/rbd.py:RBDClient.snap_rm", "src/backy/rbd/rbd.py:RBDClient.snap_create", "src/backy/rbd/rbd.py:RBDClient.export_diff", "src/backy/rbd/__init__.py:CephRBD._delete_old_snapshots", "src/backy/rbd/__init__.py:CephRBD.create_snapshot", "src/backy/rbd/__init__.py:CephRBD.get_parent"]}
{"id": "C102", "title": "Metadata files are never half written, whoever writes them at the same time", "statement": "Revision metadata, the source's config and the quarantine reports are written through SafeFile. However many processes create, replace and remove such files at the same time, however their system calls are interleaved, whichever of them are killed or fail in the middle, and however often the machine loses power: whenever anybody reads such a file, it does not exist or has exactly the complete content of one of the writes that finished under this name (or the content it had at the beginning) - never a prefix, a mixture of two writers or an empty file. Once a write has finished, every process reads the new content.", "quantifier": "all numbers of concurrent writers, all interleavings of their system calls, all kill and power-loss points, all contents, arbitrary system calls on all other files", "why_tests_cant": "a test runs one or two writers with a few interleavings and cannot lose power between two system calls", "anchors": ["src/backy/utils.py:SafeFile", "src/backy/revision.py:Revision.write_info", "src/backy/source.py:CmdLineSource.store", "src/backy/report.py:ProblemReport.store", "src/backy/report.py:ChunkMismatchReport._store_chunk"]}
{"id": "C103", "title": "Revisions on other servers expire too", "statement": "When a job has moved from another server, whose repository is left there, each run of the job applies the schedule to the complete revisions made here and on all peers taken together, each of them once, whatever copies were stored here before. Afterwards every complete revision made here has exactly the tags the schedule keeps for it in this common history, and is gone if none is left. A complete revision on a peer that has the repository but not the job is afterwards either exactly as it was or has exactly the tags the schedule keeps for it, and is gone if it lost its last one; the latter for certain if that repository is not in use and no request is lost, and then the stored copy here agrees, and where a revision was removed the peer has been asked to delete its data. Unfinished revisions there, and copies the peer has of revisions of third servers, are not touched.", "quantifier": "all schedules with sound intervals, clocks, repositories here, numbers and repositories of peers with ids unique over the servers, sets of tags, losses of requests and responses", "why_tests_cant": "The result depends on the repositories of all servers and on which request is lost; a test has two servers and one history.", "anchors": ["src/backy/daemon/scheduler.py:Job.run_forever", "src/backy/daemon/scheduler.py:Job.pull_metadata", "src/backy/daemon/scheduler.py:Job.push_metadata", "src/backy/schedule.py:Schedule.expire", "src/backy/daemon/api.py:BackyAPI.put_tags"]}
{"id": "C104", "title": "Settings are taken from the configuration file", "statement": "Reading the configuration succeeds exactly if the file is a mapping whose sections are mappings, with a base directory, numbers where numbers belong, addresses given as a text, and schedules all of whose tags have an interval that can be parsed. Then every setting is the one in the file, whether numbers are quoted or not; addresses are the parts between commas without surrounding blanks; what is not in the file has its fixed default, whatever was configured before. Each schedule has exactly the tags and intervals of its definition. A command or program that works on the repository of a job, through the repository's config file or by asking the daemon, gets the path, source and schedule the daemon had when it configured the job. Each peer is always contacted with the address and token configured for it.", "quantifier": "all YAML documents, previous settings, jobs, orders of contacting peers", "why_tests_cant": "The file may contain any combination of missing, empty, wrongly typed and odd values.", "anchors": ["src/backy/daemon/__init__.py:BackyDaemon._read_config", "src/backy/schedule.py:Schedule.configure", "src/backy/schedule.py:Schedule.to_dict", "src/backy/schedule.py:Schedule.from_dict", "src/backy/source.py:CmdLineSource.store", "src/backy/source.py:CmdLineSource.load", "src/backy/source.py:CmdLineSource.from_config", "src/backy/daemon/scheduler.py:Job.configure", "src/backy/daemon/api.py:ClientManager", "src/backy/daemon/api.py:Client.from_conf"]}
{"id": "C105", "title": "The commands find the daemon with the documented defaults", "statement": "Without further settings the daemon uses the documented base directory, and commands that ask the daemon send their requests to an address and port on which the API of a daemon with the same configuration file listens, with a token it accepts, if the client's token is one of the API's tokens.", "quantifier": "all configuration files", "why_tests_cant": "Depends on every combination of addresses, ports and defaults; tests configure the URL.", "anchors": ["src/backy/daemon/__init__.py:BackyDaemon._read_config", "src/backy/cli/__init__.py:Command.api", "src/backy/daemon/api.py:Client.from_conf"]}
{"id": "C106", "title": "A backup in the foreground", "statement": "If backy backup exits with 0, nobody else held the lock, its tags were accepted (each is a manual one or one of the schedule, unless --force is given), and there is now a complete, trusted local revision with the new id, the time and exactly the requested tags; restoring it gives exactly the image the backup was taken of. If nobody holds the lock, the tags are accepted and Ceph works, it does exit with 0, whatever happened to the directory before. If the lock is held or the tags are refused, it exits with 1, there is no new revision, and nothing has changed except that incomplete local revisions may have been removed.", "quantifier": "every state and history of a directory, every list of tags, every outcome of the commands of Ceph, every lock held by others", "why_tests_cant": "The backup is made by another process that reads the directory anew, and its exit code passes through three layers; only a proof covers all states and faults.", "anchors": ["src/backy/cli/__init__.py:Command.backup", "src/backy/source.py:CmdLineSource.backup", "src/backy/repository.py:Repository.validate_tags"]}
{"id": "C107", "title": "A restore that reports success has written a backup", "statement": "If backy restore exits with 0, what it has written is the content of the image at the time of some complete backup, never a mixture of several states.", "quantifier": "every history of a directory with complete, failed and killed backups, every specification", "why_tests_cant": "Which revision is newest and what its files contain depends on where earlier backups failed.", "anchors": ["src/backy/cli/__init__.py:Command.restore", "src/backy/repository.py:Repository.find", "src/backy/rbd/__init__.py:RBDSource.restore"]}
{"id": "C108", "title": "The newest complete backup can be restored at any time", "statement": "Whatever happened to a repository before (failed, killed, incremental and full backups, removals, verification, garbage collection, copies of revisions from other servers): as long as there is a complete revision of this server, backy restore -r 'last(clean&local)' exits with 0 and writes exactly the content the image had when the newest complete revision of this server was taken.", "quantifier": "every history of a directory with at least one complete revision, every restore target", "why_tests_cant": "Depends on the whole history of backups, crashes and deletions.", "anchors": ["src/backy/cli/__init__.py:Command.restore", "src/backy/repository.py:Repository.find", "src/backy/repository.py:Repository.find_revisions", "src/backy/rbd/__init__.py:RBDSource.restore"]}
{"id": "C109", "title": "Distrust and verify without a revision mean all of them", "statement": "backy distrust without -r marks exactly the revisions of this server as distrusted and changes nothing else. If backy verify without -r exits with 0, no revision of this server is distrusted any more: each that was is now verified, or it has been removed; no other revision has changed, whatever the exit code. On an undamaged store every complete revision that was distrusted is verified afterwards and can be restored to its snapshot, and verify exits with 0 if there is no incomplete revision. backy rm without -r does nothing and exits with 2; backy tags without -r changes the tags of every revision, also of those made by other servers.", "quantifier": "every state and history of a directory, every state of its chunks", "why_tests_cant": "A test has a few revisions; the selection is the result of parsing an expression over the whole history and each step removes data the next one may need.", "anchors": ["src/backy/cli/__init__.py:Command.distrust", "src/backy/cli/__init__.py:Command.verify", "src/backy/cli/__init__.py:Command.rm", "src/backy/repository.py:Repository.distrust", "src/backy/rbd/__init__.py:RBDSource.verify", "src/backy/source.py:CmdLineSource.verify"]}
{"id": "C110", "title": "Repositories of configured jobs are not purged by age", "statement": "The age-based purge never removes the repository of a configured job that makes its backups as scheduled.", "quantifier": "all schedules, histories of backups, times of the purge and states of the expiry", "why_tests_cant": "All schedules and times; the purge looks at modification times, not at the configuration.", "anchors": ["src/backy/daemon/__init__.py:BackyDaemon.purge_old_files", "src/backy/utils.py:has_recent_changes", "src/backy/daemon/scheduler.py:Job.run_forever", "src/backy/schedule.py:Schedule.next"]}
{"id": "C111", "title": "The exit code of the daemon", "statement": "A daemon that ends because something is wrong (no configuration or a wrong one, the lock is taken), and not because it was told to or killed, does not end with exit code 0.", "quantifier": "all sequences of starts, deaths and reloads of any number of daemons", "why_tests_cant": "All sequences of events.", "anchors": ["src/backy/daemon/__init__.py:BackyDaemon.start", "src/backy/daemon/__init__.py:BackyDaemon.lock", "src/backy/daemon/__init__.py:BackyDaemon.reload", "src/backy/daemon/__init__.py:BackyDaemon.terminate", "src/backy/daemon/__init__.py:main"]}
{"id": "C112", "title": "A failing peer does not stop expiry and garbage collection", "statement": "In a run of a job that makes a backup and in which nothing fails but the exchange with the configured peers, the run still expires revisions, pushes tag changes, collects garbage and calls the callback, and the next run is due when the schedule says; in particular no further backup is made only because a peer had trouble.", "quantifier": "all jobs, all repositories and retry states, all sets of peers and all ways in which they fail (no connection, HTTP errors, nonsense, no answer in time), any number of consecutive runs", "why_tests_cant": "The exchange is tried with every kind of failure of every peer and for unboundedly many runs; tests check one peer and one kind of failure at a time.", "anchors": ["src/backy/daemon/scheduler.py:Job.run_forever", "src/backy/daemon/scheduler.py:Job.pull_metadata", "src/backy/daemon/scheduler.py:Job._pull_metadata_single", "src/backy/daemon/api.py:Client"]}
{"id": "C113", "title": "An image needs a bounded amount of memory", "statement": "However large an image is and however it is read, written, seeked and truncated, and whether operations succeed or fail: an opened image never keeps more than twenty chunks in memory, and no more bytes than twenty times the chunk size. The chunks it stores are never larger than the chunk size. When it has to free memory it keeps the chunks that were used most.", "quantifier": "all images, chunk stores without oversized chunks, and all sequences of operations", "why_tests_cant": "The bound concerns all sequences of operations on images of any size; a test would have to watch the memory during all of them.", "anchors": ["src/backy/rbd/chunked/file.py:File._flush_chunks", "src/backy/rbd/chunked/file.py:File._current_chunk", "src/backy/rbd/chunked/file.py:File.write", "src/backy/rbd/chunked/file.py:File.read", "src/backy/rbd/chunked/chunk.py:Chunk.write"]}
{"id": "C114", "title": "Full backups are deduplicated", "statement": "A backup that does not build on another revision (a full backup, or one without a snapshot of an earlier backup in the cluster) adds to the chunk store only pieces of the image, cut at multiples of the chunk size, whose content was not stored before; each is stored once, under the hash of its content, and files that exist are not written again. If all pieces are stored already, for any image of the repository and in any order, no file is added. No content is ever stored in two files.", "quantifier": "all images, chunk stores, states of the repository and the cluster, and outcomes of the backup", "why_tests_cant": "Needs to hold for every image and every store, including images whose pieces repeat, for all evictions of the chunk cache while the image is written in blocks of a different size.", "anchors": ["src/backy/rbd/chunked/file.py:File.write", "src/backy/rbd/chunked/chunk.py:Chunk.flush", "src/backy/rbd/__init__.py:CephRBD.full", "src/backy/rbd/__init__.py:RBDSource.open"]}
{"id": "C115", "title": "Tags share backups", "statement": "A planned backup for a tag that was not missed also carries every tag whose interval divides the interval of that tag (a weekly backup is the daily backup of its day). If all intervals are multiples of the shortest one and nothing was missed, the planned time is the next slot of the shortest interval: longer intervals cause no additional backups. (Slots closer to the current time than the 2^51-th part of the time since the year 1 may be passed over.)", "quantifier": "all schedules with intervals of whole seconds, spreads, times and repositories", "why_tests_cant": "Needs arithmetic on the slots of all intervals and the floating-point computation for all times.", "anchors": ["src/backy/schedule.py:Schedule.next", "src/backy/schedule.py:Schedule._next_ideal", "src/backy/schedule.py:next_in_interval"]}
{"id": "C116", "title": "Incremental backups share unchanged chunks", "statement": "An incremental backup, whatever its outcome, leaves an image that refers to the same chunk files as its base for every chunk about which the diff says nothing and which does not lie behind the old end of the image. If there is no change at all, no chunk file is added to the store.", "quantifier": "all histories of a repository, images, diffs and chunk sizes", "why_tests_cant": "Needs an invariant over all records, seeks, fills, truncations and evictions of the chunk cache.", "anchors": ["src/backy/rbd/rbd.py:RBDDiffV1.integrate", "src/backy/rbd/chunked/file.py:File.write", "src/backy/rbd/chunked/file.py:File.truncate", "src/backy/rbd/__init__.py:RBDSource.open"]}
{"id": "C117", "title": "Log entries are complete and cannot be forged", "statement": "As long as the outputs can be written, every event is one entry of the log file (backy.log, or that of the daemon), in order, whether or not --verbose is given and whether or not stderr is a terminal; the entry shows time, task, level, job, event and values without colour codes. On stderr there are exactly the events of level info and above, all with --verbose. No output of a program, message or traceback can look like an entry: all their lines are kept, each with a mark. Logging itself does not raise. (An error in writing the log file is not ignored.)", "quantifier": "all sequences of events, texts of programs and exceptions, verbosities and terminals", "why_tests_cant": "Needs all texts (line breaks, escape characters, forged entries) in all combinations of optional fields.", "anchors": ["src/backy/logging.py:ConsoleFileRenderer.__call__", "src/backy/logging.py:MultiOptimisticLogger.msg", "src/backy/logging.py:prefix", "src/backy/logging.py:init_logging"]}
{"id": "C118", "title": "The outcome of the completion callback does not matter", "statement": "Whatever the callback that is run after a backup does - its exit code, what it prints, even if it cannot be started - the run of the job is a success if everything before was, and the next backup is made as planned.", "quantifier": "all passes, exit codes and outputs", "why_tests_cant": "Needs all outputs, including those that are no UTF-8, together with the retry logic.", "anchors": ["src/backy/daemon/scheduler.py:Job.run_callback", "src/backy/daemon/scheduler.py:Job.run_forever"]}
{"id": "C119", "title": "The slots of a job are fixed", "statement": "The regular time a job plans for, and the tags due then, depend only on its name and on the tags and intervals of its schedule, not on the server, on when the daemon was started or on the order and the numbers to keep in the configuration: planning again, after a restart, a reload or on another server, gives the same time as long as no slot has passed. The spread lies between 0 and the longest interval, and changes of the schedule that keep the longest interval do not move the slots of any interval.", "quantifier": "all job names, schedules with intervals of whole seconds, times, hash functions and generators", "why_tests_cant": "Needs arithmetic on the slots of all intervals and the floating-point computation for all times.", "anchors": ["src/backy/daemon/scheduler.py:Job.spread", "src/backy/daemon/scheduler.py:Job.run_forever", "src/backy/schedule.py:Schedule._next_ideal", "src/backy/schedule.py:next_in_interval"]}
{"id": "C120", "title": "Snapshots do not pile up in Ceph", "statement": "A backup that has made its snapshot removes, whatever its outcome, every older snapshot backy has made of the image (also those that failed or killed backups left behind) except the one of the newest revision in the repository; with full-always none is kept. A snapshot that cannot be removed does not keep the others from being removed. So if removing works there is at most one afterwards.", "quantifier": "every repository, set of snapshots, outcome of the transfer, the verification and each rbd command", "why_tests_cant": "Depends on which of the many commands fail and on what earlier runs left.", "anchors": ["src/backy/rbd/__init__.py:CephRBD._delete_old_snapshots", "src/backy/rbd/__init__.py:CephRBD.__exit__", "src/backy/rbd/rbd.py:RBDClient.snap_rm"]}
{"id": "C121", "title": "What rev-parse and log print", "statement": "`backy rev-parse` prints exactly the selected revisions in the order of the selection, none twice: the name of an existing metadata file that holds the revision or, with --uuid, its id; the ids joined by commas are a specifier that selects the same revisions in the same order in every later command for as long as they exist. `backy log --json` prints a record of each selected revision from which the revision can be read back; the table of `backy log` has one row for each of them with its time, id, size, duration, trust, server and tags (pending additions and removals marked as such, exactly), and the line below it gives their number and the sum of their sizes. Without -r both list every revision, oldest first. With several jobs, exit code 0 means that all of them were listed.", "quantifier": "all repositories, revision specifiers, tags and pending changes, all enumeration orders of sets, all later states of the directory, all lists of jobs", "why_tests_cant": "the specifiers, histories and pending changes are unbounded, and the ids must keep their meaning in all later states", "anchors": ["src/backy/cli/__init__.py:Command.rev_parse", "src/backy/cli/__init__.py:Command.log_", "src/backy/revision.py:Revision.info_filename", "src/backy/revision.py:Revision.to_dict", "src/backy/repository.py:Repository.find_revisions"]}
{"id": "C122", "title": "Restores and verifications do not disturb a running backup", "statement": "While a backup stores the image, other processes may restore and verify revisions of the same repository: whatever they do between any two accesses of the backup to chunk files and mapping files - short of collecting garbage, which they must not do meanwhile - the backup has the same outcome as if it were alone, it writes the same mapping, and the revision it leaves restores to exactly the content of the snapshot. A verification by itself removes only chunk files that are damaged.", "quantifier": "all histories before the backup, images, rbd diffs, revisions verified or restored by any number of other processes with any lists of revisions, before every single file access of the backup; all other effects of others that remove or change no chunk file and leave the mapping files of the revisions known to the backup alone", "why_tests_cant": "The interleavings of single file accesses with other processes are too many to test, and the harmful window is a few file accesses wide.", "anchors": ["src/backy/rbd/__init__.py:RBDSource.backup", "src/backy/rbd/__init__.py:RBDSource.verify", "src/backy/rbd/chunked/file.py:File._flush_chunks", "src/backy/rbd/chunked/file.py:File.flush", "src/backy/rbd/chunked/store.py:Store", "src/backy/rbd/chunked/chunk.py:Chunk.flush"]}
{"id": "C123", "title": "Jobs with short backups do not wait for jobs with long ones", "statement": "A job run uses the worker slots of the fast jobs exactly if the repository has a complete revision and the newest one took less than ten minutes, otherwise those of the slow jobs; the choice never fails. A job that waits for a slot of its kind gets one whenever fewer than worker-limit jobs of the same kind are running, whatever the jobs of the other kind do.", "quantifier": "all directories, all backups and their durations, all schedules of job starts, completions, cancellations and reloads", "why_tests_cant": "All interleavings of jobs, and all contents of the history.", "anchors": ["src/backy/daemon/scheduler.py:Job.run_forever", "src/backy/daemon/__init__.py:BackyDaemon._apply_config", "src/backy/repository.py:Repository.clean_history"]}
{"id": "C124", "title": "An accepted configuration can be carried out", "statement": "If the daemon accepts a configuration file, planning the next run never fails because of the schedule of a job, and neither does the expiry, nor the exchange with peers because of their entries: jobs go on running and expiring at all times, whatever revisions exist.", "quantifier": "all configuration files, schedules and tags, all job names, all histories, all times", "why_tests_cant": "The configuration is free text read by a YAML parser; tests use a handful of well-formed schedules, and a bad one fails only when a job runs.", "anchors": ["src/backy/schedule.py:Schedule.configure", "src/backy/schedule.py:Schedule.next", "src/backy/schedule.py:Schedule.expire", "src/backy/schedule.py:next_in_interval", "src/backy/daemon/scheduler.py:Job.run_forever", "src/backy/daemon/scheduler.py:Job.spread", "src/backy/daemon/scheduler.py:Job.pull_metadata", "src/backy/daemon/api.py:ClientManager", "src/backy/daemon/__init__.py:BackyDaemon._apply_config"]}
{"id": "C125", "title": "Requests to the daemon and the order of answers do not disturb the exchange with peers", "statement": "While a job exchanges metadata with its peers, the daemon serves requests for the status and for lists of revisions, and the peers answer in any order and at any pace. Whatever is asked and whenever: every file of the repository, the state of every peer and every error reported by the push are the same as if the push to each peer had run alone and nobody had asked; the same holds for the pull, if ids are unique. A push to a peer ends after at most one more request than there are changes for it.", "quantifier": "all repositories, peers, answers and failures of requests, all orders in which the answers of several peers arrive, and all requests served at any moment in between", "why_tests_cant": "The interleavings of the coroutines for several peers with the requests of other clients cannot be enumerated; the tests use one peer and ask nothing meanwhile.", "anchors": ["src/backy/daemon/scheduler.py:Job.push_metadata", "src/backy/daemon/scheduler.py:Job._push_metadata_single", "src/backy/daemon/scheduler.py:Job.pull_metadata", "src/backy/daemon/scheduler.py:Job._pull_metadata_single", "src/backy/daemon/__init__.py:BackyDaemon.status", "src/backy/daemon/api.py:BackyAPI.get_revs", "src/backy/revision.py:Revision.remove", "src/backy/repository.py:Repository.scan"]}
{"id": "C126", "title": "Restoring to standard output delivers exactly the image", "statement": "After any history of backups, failures, kills and clean-ups, if the revision selected by a specifier is a complete one of this server, `backy restore -r SPEC -` exits with 0 and what arrives on standard output is, byte for byte, the snapshot of that revision and nothing else, whatever the specifier is and whether standard output is a pipe, a file or a terminal.", "quantifier": "all histories, all revision specifiers, all images", "why_tests_cant": "a byte too many for one of the unboundedly many specifiers makes the delivered image unusable, and the length of the history and the image are unbounded", "anchors": ["src/backy/cli/__init__.py:Command.restore", "src/backy/repository.py:Repository.index_by_date", "src/backy/repository.py:Repository.find_revisions", "src/backy/rbd/__init__.py:RBDSource.restore_stdout", "src/backy/source.py:CmdLineSource.invoke"]}
{"id": "C127", "title": "Deleting the directory of a job starts it over", "statement": "If the directory of a job is deleted, as the manual allows, and the job is still configured, then the job's next run during which the storage cluster works makes a new complete backup that restores to the image.", "quantifier": "all histories of starts and reloads of the daemon, runs, commands and deletions, all configurations, images and leftover snapshots", "why_tests_cant": "All histories; the configuration that the backup program reads is written at another time than the directory is created.", "anchors": ["src/backy/daemon/scheduler.py:Job.configure", "src/backy/daemon/scheduler.py:Job.run_forever", "src/backy/source.py:CmdLineSource.store", "src/backy/source.py:CmdLineSource.load", "src/backy/source.py:Source.main", "src/backy/repository.py:Repository.connect", "src/backy/daemon/__init__.py:BackyDaemon.reload"]}
{"id": "C128", "title": "Log files can be renamed for rotation", "statement": "When a log file is renamed, no log entry that backy has written or writes later is lost, and entries that are written afterwards are in a file of the configured name: backy opens it again.", "quantifier": "all histories of started processes, log entries and renamings", "why_tests_cant": "a rotation can happen between any two log entries of any of the processes that write to the same file", "anchors": ["src/backy/logging.py:init_logging", "src/backy/daemon/__init__.py:main", "src/backy/source.py:Source.main", "doc/man-backy.rst"]}
{"id": "C129", "title": "Log entries of a run carry its id", "statement": "All log entries that a run of a job causes - those of the daemon, of the program it starts for the source, and of the peers it asks - carry the id of the run; likewise those of the programs and of the daemon for a command of the user.", "quantifier": "all histories of configurations and runs of a job, all ids", "why_tests_cant": "the ids are random, and the values bound to a logger depend on all that happened to the job before", "anchors": ["src/backy/daemon/scheduler.py:Job.run_forever", "src/backy/source.py:CmdLineSource.taskid", "src/backy/daemon/api.py:BackyAPI.log_conn", "src/backy/cli/__init__.py:Command.api", "src/backy/logging.py:init_logging"]}
{"id": "C130", "title": "Backups are not made more often than scheduled", "statement": "A job whose runs succeed gives a tag of its schedule to a backup again only after a whole interval of the tag, or for a later regular slot of the tag. So within n intervals of a tag, whenever they begin, at most 2 n + 2 backups get the tag, and in any period the number of backups is at most the sum, over the tags, of twice the number of intervals in the period and four - however often the daemon is restarted, and whatever the directory contained at first.", "quantifier": "all schedules, spreads, directories, clocks that do not go back, numbers of runs, times of planning and delays of less than an interval", "why_tests_cant": "A test sees a few runs with a fixed clock; that catching up never turns into a stream of backups concerns every sequence of planning times and delays.", "anchors": ["src/backy/schedule.py:Schedule.next", "src/backy/schedule.py:Schedule._missed", "src/backy/schedule.py:next_in_interval", "src/backy/daemon/scheduler.py:Job.run_forever"]}
{"id": "C131", "title": "Recovery point", "statement": "A job with schedule S (shortest interval m) makes its backups in time: every run starts at most `late` after its planned time, and at most `long` (at most m) passes from the creation of a revision to the end of its backup and to the planning of the next run. At any time from the end of one backup to the end of the next one, `backy restore -r 'last(clean&local)'` exits with 0 and writes the image exactly as it was at one moment, and that moment is at most m + late + 2*long + 1s ago. What is restored of any complete local revision is the image as it was at one moment not before the timestamp of the revision, no later than its snapshot was due, and not in the future. The image may change at any time, other servers' metadata may come and go, revisions may be removed, verified, distrusted and retagged, chunks collected, processes killed.", "quantifier": "all schedules, image contents over time, histories with times (backups, kills, expiry, removals, verifications, garbage collections, pulls, changes by the guest), all times between two backups", "why_tests_cant": "needs the composition of planning, backup, snapshot, expiry and restore over unbounded histories; a test covers one history", "anchors": ["src/backy/schedule.py:Schedule.next", "src/backy/schedule.py:Schedule.expire", "src/backy/rbd/__init__.py:CephRBD.backup", "src/backy/source.py:main", "src/backy/repository.py:Repository.find_by_function", "src/backy/cli/__init__.py:Command.restore"]}
{"id": "C132", "title": "A failing job is not tried too often", "statement": "As long as a job fails and nobody asks for a run, its n-th run after a given one begins no earlier than 2 + 4 + 8 + ... + 256 + 360 + 360 + ... minutes (n numbers) after that one. So within a period of length w it takes a worker slot at most w / 6h + 8 times.", "quantifier": "all sequences of runs, all kinds of failures, all clocks that do not go back", "why_tests_cant": "a test sees a few retries; the bound concerns any number of failures in a row", "anchors": ["src/backy/daemon/scheduler.py:Job.run_forever", "src/backy/daemon/scheduler.py:Job._wait_for_deadline"]}
{"id": "C133", "title": "A completed backup is not repeated before it is due", "statement": "When a backup has been completed, the job does not make another one before its next planned time, unless somebody asks for it.", "quantifier": "all sequences of runs and failures of the steps after the backup", "why_tests_cant": "the failures that matter are those of the steps after the backup (expiry, garbage collection, starting the callback), in any combination", "anchors": ["src/backy/daemon/scheduler.py:Job.run_forever", "src/backy/daemon/scheduler.py:Job.run_callback", "src/backy/daemon/scheduler.py:Job.run_gc", "src/backy/schedule.py:Schedule.next"]}
{"id": "C134", "title": "How far one can go back", "statement": "A job that started with an empty directory makes its backups in time. For every tag of its schedule with interval i and keep k, and every time t after the first backup that is not further back than k*i less D, where D = i + two shortest intervals + twice the delays + 2s: there is a complete revision with the tag that restores to the image exactly as it was at one moment, which is at most D before t and not after t but for the time between the creation of a revision and its snapshot. However long the job has been running.", "quantifier": "all schedules, tags, numbers of runs, times of planning and delays, image contents over time, histories with times", "why_tests_cant": "retention follows from planning, catching up and expiry together over an unbounded number of runs", "anchors": ["src/backy/schedule.py:Schedule.next", "src/backy/schedule.py:Schedule.expire", "src/backy/schedule.py:Schedule._missed", "src/backy/daemon/scheduler.py:Job.run_forever", "src/backy/cli/__init__.py:Command.restore"]}
{"id": "C135", "title": "The storage a job needs is bounded", "statement": "However long a job runs: if its image never had more than M bytes, then after a run and the garbage collection at its end - which succeeds - there are at most (sum of 3*keep + 2 over the tags of its schedule) * (M / chunk size + 1) chunk files in its directory, and none is larger than a chunk. In general, whenever all local revisions are complete, garbage collection succeeds and leaves at most as many chunk files as the images of the local revisions have chunks, and one more for each: nothing of an expired or removed revision, of an image that shrank, of a restore or of a verification stays behind for ever.", "quantifier": "all schedules, delays, numbers of runs, metadata of other servers, histories (backups, kills, expiry, removals, verifications, garbage collections, pulls, changes by the guest), image contents and sizes", "why_tests_cant": "an unbounded number of runs: a test cannot tell a slow leak from none", "anchors": ["src/backy/rbd/__init__.py:RBDSource.gc", "src/backy/rbd/chunked/file.py:File.truncate", "src/backy/rbd/chunked/file.py:File.writeable", "src/backy/rbd/chunked/store.py:Store.ls", "src/backy/schedule.py:Schedule.expire", "src/backy/repository.py:Repository.local_history"]}
{"id": "C136", "title": "Damage is healed by distrust and verify", "statement": "Whatever damage the stored data took (chunk files lost, unreadable or with other content, mapping files lost or unreadable): if backy distrust and then backy verify exit with 0, exactly those revisions of this server are left whose mapping file and chunks were undamaged, all marked as verified. If there was a revision of this server before, no damaged chunk file is left either: every complete revision of this server that is there then or is made later, in any history without new damage, restores to exactly the image of its snapshot, and a backup whose commands work succeeds. backy verify exits with 0 if the mapping files of all revisions of this server can be read (a revision whose mapping file is gone has to be removed first).", "quantifier": "all histories with damage, all histories afterwards, all orders in which chunks are checked", "why_tests_cant": "a test sees one damaged chunk; that verification finds all of it, in any combination with shared chunks and unused chunk files, and that later backups never pick up a damaged chunk again, concerns all histories", "anchors": ["src/backy/rbd/__init__.py:RBDSource.verify", "src/backy/rbd/__init__.py:RBDSource.gc", "src/backy/cli/__init__.py:Command.distrust", "src/backy/cli/__init__.py:Command.verify", "src/backy/rbd/chunked/chunk.py:Chunk._read_existing", "src/backy/rbd/chunked/chunk.py:Chunk.flush"]}
{"id": "C137", "title": "A full disk damages nothing", "statement": "When writing fails during a backup (a full disk, an input/output error; any writes, in any pattern, also ones that only report an error after everything was written), the backup either goes on unharmed or ends with the exit code 1. It never exits with 0 without a complete new revision that restores to the image, a revision marked as complete always restores to the image, every other complete revision stays complete and restores to the same data, and what is left in the directory is what some history of backups and killed backups leaves, so the next backup, with room again, succeeds and restores to its image.", "quantifier": "all histories before, all patterns of failing writes, all images, diffs and uuids, all outcomes of the rbd commands", "why_tests_cant": "which of the many writes fails, and what the buffers contain when the file is closed (and written again) after the failure, cannot be enumerated by tests", "anchors": ["src/backy/rbd/chunked/chunk.py:Chunk.flush", "src/backy/rbd/chunked/file.py:File.__exit__", "src/backy/rbd/chunked/file.py:File.close", "src/backy/rbd/chunked/file.py:File.flush", "src/backy/rbd/__init__.py:RBDSource.backup", "src/backy/rbd/__init__.py:RBDSource.verify", "src/backy/revision.py:Revision.write_info", "src/backy/repository.py:Repository.distrust"]}
{"id": "C138", "title": "A restore to a target that fails does not report success", "statement": "Whatever writing to the target of a restore does (a full disk, a block device that is too small or cannot be truncated, an input/output error, a pipe that is closed), with the built-in implementation: if backy restore of a complete revision of this server reports success and fsync does not report an error afterwards (see C139), the target begins with exactly the image, and contains nothing else if it can be truncated. If it reports an error, the target is untouched or contains a beginning of the image followed by what was there before. Standard output receives a beginning of the image, all of it if success is reported.", "quantifier": "all histories with damage, all complete revisions, all previous contents of the target, all patterns of failing writes, all sizes of the write buffer", "why_tests_cant": "an error is reported by a later call than the one that wrote the data, when the buffer is written or the file is closed; a test can force few of the places where this may happen", "anchors": ["src/backy/utils.py:copy", "src/backy/rbd/__init__.py:RBDSource.restore", "src/backy/rbd/__init__.py:RBDSource.restore_file", "src/backy/rbd/__init__.py:RBDSource.restore_stdout"]}
{"id": "C139", "title": "A restore that reports success is on the disk", "statement": "When backy restore to a file reports success, what it has written has reached the disk: a crash of the machine afterwards does not lose it.", "quantifier": "all histories with damage, all complete revisions, all previous contents of the target, all outcomes of fsync", "why_tests_cant": "errors of delayed writing are reported by fsync only, on disks that fail, thin volumes and network file systems, not in a test", "anchors": ["src/backy/utils.py:copy", "src/backy/rbd/__init__.py:RBDSource.restore_file"]}
{"id": "C140", "title": "While no backup succeeds, nothing expires", "statement": "However often and long the backups of a job fail (with an error, killed, with a full disk) or are left to another server, no complete revision of this server expires: each stays with all its tags and restores to the image at its snapshot. A revision can only be gone or have lost a tag if a backup of this server succeeded in between; when one does and no step of the run fails, the run ends with expiry and garbage collection.", "quantifier": "all numbers of runs, all ways backups fail, all points at which they are killed, all exchanges with peers, all events between the steps (guest writes, snapshots, verifications, distrust, garbage collection)", "why_tests_cant": "this is the property that makes an unattended failure harmless; it is about weeks of failing runs in any mixture, a test shows a few of them", "anchors": ["src/backy/daemon/scheduler.py:Job.run_forever", "src/backy/daemon/scheduler.py:Job.run_expiry", "src/backy/daemon/scheduler.py:Job.run_backup", "src/backy/schedule.py:Schedule.expire"]}
{"id": "C141", "title": "Expiry and rm on a full disk damage nothing", "statement": "When writing metadata fails during an expiry, the expiry ends with an error; every revision which still has a tag when an expiry is done with room is there, with at least these tags and none that it did not have before; nothing new appears, and when the expiry is repeated with room, then or later, the result is the same as if it had never been tried. backy rm of revisions of this server works whatever writes fail.", "quantifier": "all repositories, schedules, times, all patterns of failing writes", "why_tests_cant": "the disk may become full before any of many metadata writes; a test fills it before one of them", "anchors": ["src/backy/schedule.py:Schedule.expire", "src/backy/repository.py:Repository.rm", "src/backy/revision.py:Revision.write_info", "src/backy/revision.py:Revision.remove", "src/backy/utils.py:SafeFile"]}
{"id": "C142", "title": "Space can be freed on a full disk", "statement": "When nothing can be written because the disk is full, revisions can still be removed: by expiry as well as by backy rm, and garbage collection frees their chunks.", "quantifier": "all repositories, schedules and times, a disk on which every write fails", "why_tests_cant": "expiry is tested on disks with room; that it has to write before it removes anything shows in the order of its phases, for all repositories", "anchors": ["src/backy/schedule.py:Schedule.expire", "src/backy/repository.py:Repository.rm", "src/backy/revision.py:Revision.write_info", "src/backy/revision.py:Revision.remove"]}
{"id": "C143", "title": "A wrong clock", "statement": "A clock that is behind makes expiry remove nothing the right clock would keep, and when it is right again the next expiry leaves the same as if it had never been wrong. However far a clock is ahead, the newest `keep` revisions of each tag of the schedule keep that tag, and `manual:` tags stay. Whatever the times of the revisions in the directory are, also if they lie in the future, the next run is planned at most one interval of any tag after the time the clock shows.", "quantifier": "all schedules as in C27, repositories, wrong and right times, revision times; for the repetition: revisions with different times", "why_tests_cant": "tests set the clock to a few times near the revisions; a wrong clock is arbitrarily wrong and the times in the directory then are too", "anchors": ["src/backy/schedule.py:Schedule.expire", "src/backy/schedule.py:Schedule.next", "src/backy/repository.py:Repository.history"]}
{"id": "C144", "title": "Changing tags on a full disk", "statement": "Changing tags (set, add or remove, with or without --autoremove) on a disk that may become full at any write gives the answer and the result it gives on a disk with room, or it fails with an error, and then every selected revision has exactly its old or exactly its new tags (or is removed, where that was asked for) and everything else is unchanged. The same command without --expect, repeated with room and selecting the same of the revisions that are left, gives what it would have given at once.", "quantifier": "all repositories, schedules, selections, tag sets and options, all patterns of failing writes; for the repetition: commands without --expect that succeed on a disk with room", "why_tests_cant": "tests change tags on disks with room; the disk can become full before each of many writes", "anchors": ["src/backy/repository.py:Repository.tags", "src/backy/revision.py:Revision.write_info", "src/backy/revision.py:Revision.remove", "src/backy/utils.py:SafeFile"]}
{"id": "C145", "title": "Changing the schedule", "statement": "With a schedule that keeps each tag at least as long as before - in number and in time - everything expiry would have left is left, with at least the same tags. What happens to a tag depends on the entry of that tag alone: whatever else changes in the schedule, it stays on the same revisions. A tag taken out of the schedule is gone from every revision after the next expiry unless it begins with `manual:`, and a local revision with no other tag is gone.", "quantifier": "all pairs of schedules as in C27, all repositories and times; for the first: a new schedule that schedules no further `manual:` tags", "why_tests_cant": "tests expire with one schedule; the effect of a change ranges over pairs of schedules", "anchors": ["src/backy/schedule.py:Schedule.expire", "src/backy/schedule.py:Schedule.configure"]}
