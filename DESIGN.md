# Formal model of flyingcircusio/backy in Lean 4

## Method

The Python source in `/repo/src/backy` was read as text (it is not built or run here).
`lean/Verif/Model/*` contains executable, total Lean definitions which follow the Python
functions branch by branch; every definition cites the file and lines it models and names
its simplifications.  `lean/Verif/Spec/*` contains small specifications that do not mention
the model.  `lean/Verif/Proofs/*` holds helper lemmas.  `lean/Verif/Props/*` holds the
property theorems (names start with the property id, e.g. `C01_...`) and, next to each,
an `example` showing that a concrete non-trivial state meets its hypotheses.

Where the unchanged code violates the English property the negation is proved on a concrete
witness (`..._false` theorems), the strongest true part is proved with the suffix
`_partial`, and the disagreement is listed below under "Findings".

## Plan per property

| id | modelled | proof |
|----|----------|-------|
| C01 | `rbd/chunked/{chunk,file,store}.py`: Chunk, File, Store with cache, dirty flags, eviction by access statistics; any chunk size > 0, any eviction order consistent with arbitrary access statistics | refinement to a flat byte list, induction over operation sequences |
| C02 | File.flush/close/__init__ and mapping (de)serialisation as a map | same invariant, reopen lemma |
| C03 | File.seek / write | corollary of the refinement |
| C04 | Chunk._read_existing | case analysis on arbitrary (corrupt) stores |
| C05 | Store contents shared by several mapping files | store only grows / existing good chunk never altered; frame theorem |
| C06 | File.truncate with arbitrary size/position | false: witness; `_partial` for position = size |
| C07,C08 | Source.gc, Store.ls, File used as reader of mapping | set reasoning over arbitrary histories |
| C09-C12 | RBDDiffV1 reader and integrate (`rbd/rbd.py`) over arbitrary byte streams, with an independent encoder as spec | round trip by induction; prefix theorem; refinement to applying records on a flat file |
| C13 | RBDSource.backup/verify/gc, CephRBD.__enter__/__exit__/get_parent, expiry/rm/distrust as steps over an abstract RBD cluster with snapshots | invariant over all histories |
| C14 | Revision.get_parent, CephRBD.get_parent | induction on history |
| C15 | Repository.contains_distrusted, Store.force_writes | false: theorem that force_writes is never set |
| C16,C17 | RBDSource.backup outcome logic, Source.main | case analysis for every result of the sub-operations |
| C18 | CephRBD._delete_old_snapshots | frame theorem; second half false: witness |
| C19 | RBDSource.verify | loop invariant; last clause false: witness |
| C20,C21 | utils.copy, copy_overwrite, punch_hole, RBDSource.restore_* | loop induction over file contents of any length and block size |
| C22,C23 | utils.files_are_equal, files_are_roughly_equal | loop induction; sample set as arbitrary parameter |
| C24,C25,C30 | schedule.next_in_interval, Schedule._next_ideal/_missed/next/sla_overdue | Model/Float: IEEE double rounding on rationals; bounds on the rounding errors; otherwise exact integers |
| C26-C29 | Schedule.expire over repository metadata | induction over the loops, write-log for crash points |
| C31 | schedule.parse_duration | string induction |
| C32 | Job.run_forever backoff | arithmetic |
| C33-C35,C39 | Repository.scan, Revision.load/write_info/to_dict/remove, tags, rm, distrust, _clean | list/multiset reasoning |
| C36-C38 | Repository.find*, index_by_*, tokenisation | structural; documented grammar as independent semantics |
| C40-C42 | Repository.locked, lock release; interleaving transition system | invariants over all interleavings, witnesses for the false ones |
| C43-C45 | utils.SafeFile, Chunk.flush, mapping write, write_info, os.sync order on a file system with volatile/durable state | crash-point induction; C44 false: witness |
| C46,C47 | daemon/api.py middleware and handlers | decision logic, frame |
| C48-C51 | Job._pull_metadata_single, _push_metadata_single, remove_dead_peer | map reasoning; false clauses: witnesses |
| C52 | Job._wait_for_leader, run_forever decision | decision logic over arbitrary peer answers |
| C53 | semaphore acquire/release in Job.run_backup | transition invariant |
| C54 | BackyDaemon._apply_config | map equality |
| C55 | BackyDaemon.purge_old_files, utils.has_recent_changes | tree induction |
| C56 | file/__init__.py | false: witness; `_partial` |
| C57 | cli check command | decision logic |
| C58 | source with consul: create_snapshot | loop over entries; false clause witness |
| C59 | report.py | file map; false clause witness |
| C60 | what `rbd export`/`export-diff` write before failing (`Rbd` parameter of Model/Backup) | case analysis; false for full exports: witness |
| C61 | BackyDaemon.purge_pending_backups, Job.run_gc | false: general negation (no state in which it works); frame theorem |
| C62 | Job.run_forever with every external call able to fail | trace induction; false: witness |
| C63 | BackyDaemon._apply_config + stored repository config | map reasoning; false: witnesses |
| C64 | Model/Locks: flock table, blocking shared locks | progress theorem on all reachable states |
| C65 | Model/Conc: every execution has its own list of revisions | witnesses; positive part for every operation of an execution whose copy of the record is current |
| C66 | Model/Migrate: Store.__init__, convert_to_v2, one step per rename/rmdir | invariant over steps and restarts |
| C67 | Model/Commands: Command.__call__, rm, tags, distrust, restore, Source.main | reduction to C20, C35 and file-map lemmas |
| C68 | Model/Commands: rev_parse, log_, restore | case analysis |
| C69 | Model/Commands: backup in the foreground | final cleaning is a no-op; false: witness; positive part by an invariant on all revisions |
| C70 | Model/Commands: -n | false: witness |
| C71 | Model/Commands: str.split, str.strip | induction on the text |
| C72 | Model/Commands: get_repos and the loop over repositories | induction on the selected jobs |
| C73 | Model/Commands: verify, gc, Source.main | induction on the selected revisions; false: witnesses |
| C74 | Spec/Damage: histories with damage between events; Proofs/Ideal: an undamaged shadow of the store | simulation: what succeeds in the damaged store succeeds in the shadow with the same result; invariant over histories |
| C75 | the same | monotonicity of reading in the intact part of the store |
| C76 | the same and Src.verify | C19 and C75 |
| C77 | Model/Status: `BackyDaemon.status`; Spec/Status: what an entry says, in terms of the files | scan lemmas, C30, induction over the jobs |
| C78 | Model/Status: the question of `_wait_for_leader` as a (small) regular expression, answers computed from the peers' states | C52 and C77 |
| C79 | Model/Overlap: reading with another state of the directory at every file access | the chunks of the revision are the same in all states (invariant of Spec/History, mapping files never change); simulation |
| C80 | Model/Daemon: the steps of a pass as a list | prefix lemma for steps that may fail |
| C81 | Model/Backup: runBackup | C18's characterisation of complete revisions, contents of the file |
| C82 | Model/Daemon: findLeader, waitForLeader; clusters as functions | the leader is a maximum; more revisions is a strict order |
| C83 | Model/Backup, Spec/History | case analysis of the ways a run writes; the invariant of C13 shows that verification finds nothing |
| C84 | Model/Requests: the task of a job and its event, at the granularity of the event loop | invariant: the event stays set until the job attempts a backup; counting |
| C85 | Model/Timeline, Spec/Timeline: passes of a job with their times; planning, cleaning, expiry composed | C24, C25, C27, C30; the newest carrier of a tag survives every state of expiry; the backups of Model/Backup are such passes (`runBackup_backs`); Spec/TimelinePeers: the same with any changes of the metadata of other servers, a young revision keeps its tags through every state of expiry |
| C86 | the same | case distinction missed / not missed (C25); the newest carrier survives |
| C87 | the same | invariant: runs with a tag are an interval apart, separately for regular slots and for missed tags; counting |
| C88 | Model/Mapping: `RBDClient.map`, `image_reader`; the host's table of devices | case analysis; `pool/name@snap` is injective for names Ceph allows; C88_in_backup connects it with Model/Backup |
| C89 | Model/Backend: `RBDSource.restore` with the choice of the program | case analysis, C20 |
| C90 | Model/Files, Spec/Damage | the damaged run agrees with the run on an ideal store up to its first error |
| C91 | Model/Background: `Command.backup` in the background, on top of Model/Api | induction over the jobs, C84_accepted |
| C92 | Model/ApiServer: `BackyAPI.reconfigure` as a state machine, events: reload, address opened, closed, failed | invariant over all event sequences; termination by the number of addresses |
| C93 | Model/Callback: pull, expire, push and the call of the callback on top of Model/Sync | the history in memory equals the directory after each step (`Sync`); witness |
| C94 | Model/SourceArgs: `CmdLineSource.restore`, `to_cmdargs`, the parser of the program, `str(Path(...))` | case analysis; splitting and joining paths are inverse |
| C95 | Model/Commands: `Source.main` | C08, C19 |
| C96 | Model/TimeOut: `TimeOut` and the polling loop of `create_snapshot`; what each listing shows and how long listings and sleeps take are parameters | induction over the rounds |
| C97 | Model/Show: `show_jobs`, `show_daemon`, on top of Model/Status and Model/Commands; regular expressions are a parameter | C77, sorting is a permutation |
| C98 | Model/Life: `lock`, `start`, `reload` of any number of daemons, the table of locks of the kernel | invariant over all event sequences |
| C99 | Model/Daemon `runForever` with times, Model/Timeline; failed runs may do anything to the directory | C32 for the deadline, C24/C25 for planning, C26 for the surviving carrier of each tag |
| C100 | Spec/Lasting: the events of Spec/History that are not meant to remove the revision | induction over the events: C83, C45, C27, expire_ok and the verification of an undamaged image step by step, then C13 at both ends |
| C101 | Model/RbdCmd: a backup as a program that gives `rbd` command lines and gets arbitrary answers; Spec/RbdCmd: what a command line may do to a cluster | inversion of executions of composed programs; every command is one of twelve forms with a condition on the commands before it |
| C102 | Model/FsConc on top of Model/Fs: any number of processes in a `SafeFile` block, interleaved system calls, kills, power losses, arbitrary calls on other files | invariant: each temporary file belongs to one process; every binding of a metadata name a power loss may leave is to a synchronised, complete file |
| C103 | `exchange`: pull from all peers, `expire`, push to all peers, with the peers' API servers (Model/Moved.lean) | induction over the peers with `pull_spec` (C48), `C27_expiry_exact` and `C50_push`; a peer's push concerns its own revisions only |
| C104 | Model/Config: `_read_config`, `Schedule.configure`/`to_dict`, `CmdLineSource` configuration, `ClientManager` on YAML values | inversion of the reading function; induction over the tags, schedules and clients |
| C105 | the same, with the client's URL and a model of how URLs are split (`urllib.parse`) | decimal numerals are read back; a colon in the port is never a number |
| C106 | `main` of Model/Commands with the command `backup`, on top of `runBackup` (C13, C16, C81) | the final `_clean()` does nothing (C69), so the outcome is that of `runBackup`; inversion of the exit code |
| C107 | `main` with `restore` after the histories of Spec/History | false of the code (witness: a diff that breaks off); for complete revisions from C67 and C13 |
| C108 | the same with the expression `last(clean&local)` | its meaning by C37, then C13 |
| C109 | Model/Defaults: the defaults of `-r`; `verifyLoop` of Model/Commands | meaning of the default expressions by C37; induction over the revisions that are verified |
| C110 | Model/Purge and Model/Timeline together: the tree shows the revisions of the directory, each file not older than its revision | false of the code (witness: a run every 100 days); else from C55 and the surviving revision of C85 |
| C111 | Model/Life | false of the code for a reload; induction over the events for the rest |
| C112 | Model/Sync, Model/PushStop: an answer may be an exception that is not caught; Model/Daemon | false of the code (a peer that hangs, for any number of runs); else the pull is shown to end, and the run goes through all its steps |
| C113 | Model/Chunked as for C01 | invariant over all operations, including failing ones |
| C114 | `Model/Chunked.lean`, `Model/Backup.lean`; `Props/Dedup.lean` with the specification `Deduplicated` (each file of the store afterwards was there before, or is a piece of the image that was not stored) | invariant of a file that is written from the start to the end: every cached chunk is the part of its piece that has been written, flushed chunks are complete pieces |
| C115 | `Model/Schedule.lean` as for C24; `Props/Shared.lean` | slots of an interval are slots of its divisors; C24 for both intervals |
| C116 | as for C13; `Props/Sharing.lean` with `MayChange` (positions a diff record is about, or behind the old end) | invariant over the operations of `integrate`: the mapping differs from the base only at chunks with such a position, other cached chunks are clean |
| C117 | `Model/Logging.lean`: renderer, colour codes and their removal, loggers; `Spec/Logging.lean`: lines, entries, details | removing codes commutes with splitting into lines; every later line of an entry begins with a mark; induction over the events |
| C118 | `Model/CallbackRun.lean`: UTF-8 decoding of the outputs and the outcome of `run_callback` in `Model/Daemon.lean` | case analysis; witness for the negation |
| C119 | `Model/Spread.lean`: `Job.spread` with hash and generator as parameters; `Props/Spread.lean` | the maximum depends on the set of intervals only; C24 for both times of planning |
| C120 | `Model/Backup.lean`, `Model/RbdCmd.lean`; `Props/Leftover.lean` | the filter of `deleteOldSnapshots`; inversion of the runs of the interactive program |
| C121 | `Model/Listing` (the output of `rev_parse`, `log_` as values: lines, JSON dictionaries, table rows; printing over several jobs with `Cli.call`) | selection facts from C37; the ids as an expression `id1,id2,…` evaluated with C37_expressions and C36_id; JSON through C34_text_time; the cell of tags by cases on pending changes; the loop over jobs by induction |
| C122 | `Model/Beside.lean`: the chunked file, the integration of diffs, `backup` up to the comparison, with a turn of the others before every access to a chunk or mapping file; `Spec/Beside.lean`: what is harmless | simulation: the run beside others and the run alone (`Model/Backup.lean`) have the same `File` object and results, the directory of the former contains that of the latter; no chunk is missing alone (`C13`); verifications delete a chunk only if reading it fails, which in a sound directory means it is not there |
| C123 | `Model/Pool.lean`: the choice of the semaphore from the list of revisions; `Model/Slots.lean` | the last of a sorted list; C81 for the recorded duration; C53 for the slots |
| C124 | Model/PeersConf (clients made from the entries of `peers`), Model/Accepted (planning and expiry on a schedule as it was configured, with any value for keep), Model/Config, Model/Spread, Model/Schedule, Model/Daemon | sound definitions: every step of planning and expiry succeeds; the loop of the job by C62; unsound ones: the error reaches the loop; for whole numbers the expiry is that of Model/Schedule (`expire_meant`) |
| C125 | Model/Queried (push and pull as sequences of events: an answer of some peer, or a request to the daemon that reads the directory again) | invariant: what the rest of each coroutine would do if it ran alone, on the current files, is what the whole of it does on the first ones (`Inv`); the files of a peer's revisions are touched by its coroutine only; for the pull: memory agrees with the directory on the revisions of the peers still to come (`PeerSync`) |
| C126 | `Model/Said` (what `index_by_date` prints, carried through the evaluation of specifiers, `find`, `rev-parse`, `log` and `restore … -`) | the evaluation prints nothing for texts without a date range: functional induction over the evaluator with the set of texts that can occur, tokens are parts of the specifier; exactness through the invariant of all histories and C20; witness by computation |
| C127 | `Model/JobDir` (the directory and the `config` file of every job, joined with `Model/Reload` and `Model/Backup`), `Spec/JobDir` (events, possible histories) | invariants along histories: without a new configuration the directory has no `config` and no complete local revision; with one, its content comes from an empty repository with the snapshots the old one left, so that C13 applies (`Initial` allows such snapshots) |
| C128 | `Model/Rotate`: names of files, files, and the file each process has opened; `init_logging` opens the file once | Invariants over all histories (entries stay in the opened file; every opened file has a name); the property is false: after a rotation the file of the configured name has only entries of later processes |
| C129 | `Model/TaskId`: the values bound to the loggers of a job, its source and its repository; what the program, the peers and the commands write | Invariants over all histories of configurations and runs; the property is false for the program and for commands |
| C130 | `Model/Timeline` (passes of a job), `Model/Schedule` | From the invariant of C87: a catch-up is a whole interval after every earlier backup with the tag, two regular slots are an interval apart; counting. With other servers: the run's own revision is still there or an interval old |
| C131 | Spec/Recovery: histories with times over the events of Spec/History; passes of Spec/TimelinePeers | invariant over timed histories: every complete local revision has the snapshot content img τ with ts ≤ τ ≤ now (Core/All lemmas carry timestamps); composed with survival of the newest revision (C85) and C108 |
| C132 | `Model/Daemon` (run_forever), Spec/Retries: runs with the time at which their waiting was over | induction over the runs, newest first; C32 gives each waiting time, the number of failures in a row gives its lower bound; arithmetic for the count |
| C133 | the same | counterexample from the model with the real planning function; positive part from C32 |
| C134 | Spec/Timeline (passes), Spec/Recovery (histories with times) | induction over the passes: at the time t the tag recurs (C86), afterwards the revision is too young to lose it (C26); restored as in C131 |
| C135 | `Model/Backup`, Spec/History (histories), Spec/TimelinePeers (passes), `Model/Rbd` (gc) | invariant (Proofs/Fits): every mapping file has distinct chunk numbers, none beyond the end of its image, and every chunk file that is referenced has at most the chunk size; gc leaves only referenced chunks (C08); the number of revisions from C87 |
| C136 | Spec/Damage (histories with damage), `Model/Commands` (distrust, verify), Spec/History (afterwards) | loop invariant over the verifications: revisions marked as verified are intact, and after each successful one every chunk file is needed by a revision of this server; at the end all are verified, so the state satisfies the invariant of undamaged histories, from which C13 follows |
| C137 | `Model/FullDisk`: the functions of a backup with a drive whose writes may fail, and what Python does then (closing the file writes the buffers again) | simulation: as long as nothing failed the two models agree; after the first failure the directory satisfies `Torn`, the invariant of killed backups; the result is a state of `Killed`, up to the deletion of snapshots and of the new revision |
| C138 | `Model/Device`: the loops of restore with a buffered target whose writes may fail, which may not be truncated | loop invariant: written is a beginning of the image, the buffer holds what comes next; with a working target: simulation with Model/Files |
| C139 | `fsync` in `Model/Device` | false: witness; what is on the disk if it succeeds |
| C140 | `Spec/Failing`: the actions of `Model/Daemon` with their effects on the system of `Model/Backup` | every action but expiry spares complete revisions (C83, C45, C100); expiry comes only after a backup that succeeded (`runSteps`) |
| C141 | `Model/FullOps`: expiry and `rm` with failing metadata writes | every function agrees with the one of `Model/Schedule` or stops in a logged state; C29 and the invariant of its proof (`Mid`) give the rest |
| C142 | as C141 | false for expiry: general theorem (anything due, nothing written: nothing removed); `rm` and `gc` proved |
| C143 | expiry and `next` of `Model/Schedule` with two clocks | kept tags are antitone in the time (`due_mono`) with C27; C29; the newest `keep` are never due; C25 with C24 |
| C144 | `tags` in `Model/FullOps` | induction over the loop: as `Model/Tags` or cut; C35 for the result, the actions are idempotent |
| C145 | expiry of `Model/Schedule` with two schedules | C27: kept tags are monotone in the schedule, and membership of a tag mentions its entry only |

## Findings: where the code does not have the property

Each line names the theorem that proves the negation on a witness of the model (all are in `Props/`).

| id | theorem | what happens |
|----|---------|--------------|
| C06 | `C06_truncate_false_stale`, `_grow` | `File.truncate(size)` only works for position ≤ size ≤ file size: below the position stale bytes come back, above the size reads fail |
| C15 | `C15_false_not_rewritten` | `Repository.contains_distrusted` compares `Revision` objects with a `Trust` value, is never true, so `force_writes` is never set |
| C16 | `C16_false_exit_code` | a verified backup exits with 1 if the verification of *another* distrusted revision raises afterwards |
| C17 | `C17_false_masked_error` | when `rbd snap ls` fails on leaving the snapshot context, its exception replaces the backend error and nothing is distrusted |
| C18 | `C18_false_failed_backup` | the snapshot of the newest valid revision is deleted by a backup that then fails its verification |
| C19 | `C19_false_trusted_loses_chunk` | verification deletes a damaged chunk; another trusted revision that shares it stays trusted |
| C23 | `C23_false_tail_never_examined` | the last incomplete block of an image is in no sample |
| C38 | `C38_false_oldest_date`, `_same_time` | a date equal to the time of the oldest revision raises KeyError (index 0 is falsy); a date at which two revisions exist raises AssertionError |
| C39 | `C39_false_stale` | `_clean` works on the in-memory list: a revision completed meanwhile is removed |
| C40 | `C40_false_verify_gc` | `verify` runs `gc(skip_lock)` while holding only the shared `.purge` lock |
| C41 | `C41_false_verify_gc`, `C41_false_gc` | both garbage collections use a list of revisions read before the lock, and delete chunks of a revision completed meanwhile |
| C42 | `C42_false_unlocked` | `push_metadata`/`pull_metadata` are coroutine functions under a synchronous lock decorator: the lock is released before they run |
| C43 | `C43_false_tempfile_left` | `SafeFile.__exit__` leaves the temporary file if the final flush fails |
| C44 | `C44_false_before_sync` | chunk and mapping files are not synced before the revision is recorded complete |
| C45 | `C45_false_stale_history` | after a killed backup, a process with an older list of revisions makes a wrong complete revision |
| C49 | `C49_false_same_id` | a peer that reports an id existing locally takes the local revision over |
| C51 | `C51_false_error_drops`, `_pull_discards` | an HTTP error of a peer removes its revisions here; the pull at the start of a run discards unpushed tag changes |
| C56 | `C56_false_gc` | `gc` of the file source removes every metadata file |
| C58 | `C58_false_garbage` | missing `continue` after deleting a garbage entry |
| C59 | `C59_false_delete` | `with_suffix("report")` raises ValueError: deleting reports never works |
| C60 | `C60_false_cut_export` | the exit status of `rbd export` is ignored |
| C61 | `C61_false_never_purged` | `purge_pending_backups` runs gc on a job that was never configured |
| C62 | `C62_false_loop_ends` | an exception in connect or planning ends `run_forever` for good |
| C63 | `C63_false_stored_config`, `_stale_schedule` | changed schedule definitions do not reach the stored repository config |
| C65 | `C65_false_verify_loses_tag`, `_resurrects` | `verify` writes back metadata it read when it started |
| C66 | `C66_stuck` | a leftover temporary file in an old chunk directory makes every later start of the migration raise OSError |
| C69 | `C69_false` | the `_clean()` after a foreground backup works on the list read before the revision existed: it never removes anything |
| C70 | `C70_false` | `-n` is parsed, stored and never used |
| C73 | `C73_false_verify`, `C73_false_gc` | `backy verify` gives 0 for a damaged (and removed) revision; `backy gc` drops the exit code of the collection |
| C24 | `C24_slot_passed_over` | `next_in_interval` computes in floating point: a few microseconds before a slot the time is rounded to the slot itself, which is then skipped (a whole interval) |
| C78 | `C78_wrong_job` | `fetch_status(f"^{name}$")` does not escape the name: job `vm.1` skips its backup because of a backup of job `vm-1` |
| C77 | `C77_fails_iff` | one job whose schedule has no tags makes the status request fail for all jobs |
| C84 | `C84_coincidence` | `_wait_for_deadline` clears the event also if the timer was first: a request made in that moment is forgotten if a peer has made the backup |
| C88 | `C88_newer_release` | the mapping list is parsed by the wrong parser on all releases after Nautilus: every comparison fails and leaves a mapped device behind (which also prevents the deletion of the snapshot) |
| C91 | `C91_tags_ignored` | `backy --jobs … backup manual:x` silently ignores the tags |
| C92 | `C92_reload_lost` | `reconfigure` clears the event after it has opened and closed addresses: a reload in the meantime is lost, a revoked token stays valid |
| C92 | `C92_failed_address` | if an address cannot be opened, the task that takes up reloads of API settings ends for good |
| C93 | `C93_false_skipped` | `write_info` does not update the history in memory: the callback after a run left to a peer does not see the revision pulled in that run |
| C94 | `C94_help_is_success` | a target such as `./-h` (file) or `--help` (RBD) makes the program print its help; backy reports success and nothing is restored |
| C97 | `C97_needs_jobs` | `backy show-jobs` without `--jobs` or `-a` always fails: the query value is None, a TypeError in yarl |
| C98 | `C98_moved` | a reload that changes `base-dir` keeps the lock of the old directory; a second daemon can then work in the new one |
| C81 | `C81_size_zero` | the size `backy log` prints for an RBD backup is always 0: the file that counts the bytes has statistics of its own, the revision's counter is never updated |
| C105 | `Verif.Config.C105_false_default_address` | If no `addrs` are configured the first one is `::1`, and the client's URL becomes `http://::1:6023`, which is not valid (an IPv6 address needs brackets): without an explicit `url` (which the manual does not mention) every command that asks the daemon fails. With the order of the manual, `127.0.0.1, ::1`, it works. |
| C105 | `Verif.Config.C105_false_base_dir` | The manual says that `base-dir` defaults to `/srv/backy`; without it the daemon does not start (`Path(None)`). |
| C107 | `Verif.Commands.C107_false_mixture` | `backy restore` without `-r` restores the newest revision even if its backup failed. If `rbd export-diff` broke off in the middle, the exit code is 0 and the target is a mixture of the old and the new state, which was never the content of the image. `-r 'last(clean&local)'` avoids it (C108). |
| C110 | `Verif.PurgeJob.C110_false_slow_schedule` | `purge_old_files` does not spare the repositories of configured jobs. If the shortest interval of the schedule is longer than 93 days (quarterly or yearly backups only) and the daemon is not restarted in between, all backups of the job are deleted before the next one is due. |
| C111 | `Verif.Life.C111_false_reload` | If a reload finds a wrong configuration, the daemon ends (this is intended, CHANGES.txt), but with exit code 0, so that a service manager that restarts or reports failed services does not notice. |
| C112 | `C112_false_hanging_peer`, `C112_false_hanging_push` | a peer that does not answer within 30 seconds raises `asyncio.TimeoutError`, which is no `ClientError`: every run of every job that both servers know makes a backup and then fails before expiry and gc; it is repeated after at most six hours; the same in the push: no garbage collection |
| C117 | `C117_write_error_escapes` | The docstring of `MultiOptimisticLogger` says that errors in sub loggers are ignored silently; nothing catches them, so with a full disk the first log message ends whatever is being done. |
| C118 | `C118_false_counts_as_failed`, `C118_false_backup_repeated` | If `backup-completed-callback` cannot be started or prints bytes that are no UTF-8, a run whose backup is complete counts as failed and is repeated after 2, 4, 8, … minutes: a backup every few minutes up to every six hours, whatever the schedule. |
| C41 | `C41_false_running_gc` | `verify` collects garbage while it holds `.purge` only in shared mode (`gc(skip_lock=True)`), as a running backup does: chunks the backup has flushed but not yet entered into its mapping file are deleted although the verifying process knows the new revision; the backup ends successfully and cannot be restored |
| C124 | `C124_false_accepted`, `C124_false_never_runs`, `C124_false_never_expires` | The configuration of schedules is not checked: without tags or with an interval such as `0d` the file is accepted and the jobs that use the schedule never run (their loop ends while planning, as with C62); without `keep` every run makes a backup and then fails in the expiry, and is repeated like a failed backup |
| C124 | `C124_false_never_expires`, `C124_false_other_revisions` | The name of a tag is pasted into a revision expression (`"tag:" + tag`): with a separator in the name the expiry fails (`weekly (sunday`: AssertionError, always) or selects other revisions and fails when it removes a tag they do not have (`daily, local`: KeyError) |
| C93 | `C93_false_status_request` | A status request, or a peer asking for the list of revisions, while the push waits for an answer makes the daemon read the directory again: the push then removes revision objects that are not in the history any more, and the callback is told of revisions that have just been deleted here and at the peer |
| C121, C126 | `C121_false_debug_output`, `C126_false_debug_line` | `Repository.index_by_date` contains a `print` for debugging (`repository.py:481`): every date in a range such as `2024-05-01..` adds a line to standard output. The output of `rev-parse` and `log --json` has a line that is none of theirs, and `backy restore -r 'last(..2024-05-01)' -` delivers the image with a line of text after it (before it on a terminal) |
| C127 | `C127_false_until_configured`, `C127_false_deleted` | A job directory that is deleted while the daemon runs (by the administrator, or by the purge by age, C110) is created again by the next pass without its `config` file, which only `Job.configure` writes: `backy-rbd` ends with 1, and every run fails, with back-off, until the daemon is started again or the job's configuration is changed; a reload with the same configuration does not help |
| C128 | `C128_false_not_reopened`, `C128_false_daemon` | The man page says that log files may be renamed for rotation and are opened again automatically (`doc/man-backy.rst:55-58`). `init_logging` opens the file once (`logging.py:381-382`) and nothing opens it again: after a rotation the daemon goes on writing to the renamed file, and the file of the configured name has only the entries of programs that were started later |
| C129 | `C129_false_program`, `C129_false_command` | A run binds its id as `sub_taskid` (`daemon/scheduler.py:200-207`), `CmdLineSource.taskid` looks for `subtaskid` and `taskid` (`source.py:264-267`), and `backy` keeps its id as a default of the logging configuration, not in the context of its logger (`cli/__init__.py:135`, `742`): the program of a run, and the daemon and the program of a command, write entries with an unrelated random id |
| C124 | `C124_false_peers`, `C124_false_peers_accepted` | An entry of `peers` without `url` or `token` is accepted; the client cannot be made (`KeyError`), so every run of every job makes a backup of its own and then fails in `pull_metadata`: no expiry, no push, no garbage collection, no callback, and the backup is repeated with the backoff of failed runs. |
| C133 | `C133_false_repeated` | Everything from waiting for the peers to the completion callback is one `try` block (`daemon/scheduler.py:238-286`). If the backup is complete and a later step fails (expiry, garbage collection, a callback program that cannot be started), the whole run is retried after 2, 4, 8, … minutes, so another backup is made although nothing is due. It gets the tags of the *next* slot (`210-224`), which is then not missed any more. With a permanently failing step the job makes a backup every six hours whatever the schedule says. |
| C139 | `C139_false_fsync` | `copy` ignores every `OSError` of `os.fsync(target)` (`utils.py:330-333`), to support special files. An input/output error or a remote or thin volume without room, which the kernel reports only there, is ignored too: `backy restore` exits with 0 and the target lacks a part of the image. `EINVAL` and `EROFS` would be enough to ignore. |
| C142 | `C142_false_full` | On a full disk expiry frees nothing: it removes expired tags by writing the metadata (`schedule.py:138-142`) before the first revision is removed (`schedule.py:156-160`), and the first failing write ends it. The daemon does not even get there, since it expires only after a backup that succeeded (C140); `backy rm` and `backy gc` work. A job whose disk is full does not recover by itself. |

Smaller observations made while modelling: `remove()` never deletes the mapping or data file; `keep=0` never expires
anything; a tag with special characters breaks `find_revisions("tag:"+tag)`; the "not changed" check in
`CmdLineSource.store` compares with an unflushed file; a total aiohttp timeout escapes the pull/push handlers; one
failing `rmtree` ends the pass of the age-based purge; a lost confirmation leaves a pushed change pending.

## What is modelled

| source | model | not modelled |
|--------|-------|--------------|
| `rbd/chunked/{chunk,file,store,__init__}.py` | Model/Base, Chunked, ChunkedOps, Fs (writing of chunk and mapping files), Overlap and Beside (single file accesses, with others in between), Migrate (conversion of old stores) | `fadvise`, lzo itself, permissions |
| `rbd/rbd.py` | Model/Diff (the stream of `export-diff`), Mapping (`rbd map`), RbdCmd (all command lines of a backup), Backup (commands as parameters) | what the program `rbd` does with a command line is a specification (Spec/RbdCmd), not a model |
| `rbd/__init__.py` | Model/Rbd, Backup, RbdCmd, Backend, Beside, Overlap, Files, Locks, Conc, Consul, TimeOut, Report, Purge, SourceArgs | legacy `last` links, backy-extract (Rust), progress output |
| `file/__init__.py` | Model/FileSource, SourceArgs | |
| `source.py` | Model/Reload, Locks (which command takes what), Commands (`Source.main`), SourceArgs (command lines between the processes), Config, FileSource, FsConc | logging |
| `repository.py` | Model/Repo, RevSpec, Said, Tags, Schedule, Locks, Conc, Commands, Report, Status, Purge | |
| `revision.py` | Model/Repo, RevMeta, Listing, FsConc, Status, Sync | `materialize` (permissions) |
| `schedule.py` | Model/Schedule, Float, Config (reading), Timeline, Spread | overflow and subnormal floats |
| `report.py` | Model/Report, FsConc | stack traces |
| `utils.py` | Model/Files, Fs, FsConc, Purge, RevSpec (list helpers), Diff, TimeOut, Requests, Listing, Backend | `format_timestamp`, `min_date`, daemon helpers |
| `daemon/scheduler.py` | Model/Daemon, Slots, Pool, Accepted, Sync, Requests, Timeline, Reload, Moved, PushStop, Queried, Callback, CallbackRun, Spread, Purge, Status | subprocess plumbing, log output |
| `daemon/__init__.py` | Model/Reload, Life, Config, ApiServer, Purge, Status, Slots | signals, event loop itself |
| `daemon/api.py` | Model/Api, ApiServer, Sync, Background, Requests, Status, PushStop, Show, Config | aiohttp routing |
| `cli/__init__.py` | Model/Cli, Commands, Defaults, Listing, Said, Show, Background, Report | table layout |
| `logging.py` | Model/Logging | colorama, structlog, formatting of `_fmt_msg` |
| `s3/`, `ext_deps.py` | – | a placeholder, constants |

## Concurrency and crashes

* Model/Locks: any number of executions, the kernel's flock table, all interleavings of taking and giving back locks and of
  arbitrary effects of the bodies.  Model/Conc adds per-process memory and the real effects of the bodies, one step per body
  (two for `verify`).  Model/Overlap splits restore and verify into their single file accesses and lets whole bodies of
  other executions run between any two of them (C79).
* Crashes of the process: every prefix of the writes of expiry (C29), of SafeFile and chunk files (C43, C45), of a backup
  (`Killed` in Spec/History).  Failing writes (a full disk) during a backup: Model/FullDisk (C137).  Power loss: Spec/Crash (unsynced content and directory entries may be lost in any combination).

## Tests against wrong programs

`seeded/LOG.jsonl` has one line per seeded bug: an edit of one definition in a scratch copy of the Lean project, the claim it
breaks, the theorems whose proofs then fail (`theorems_failed`; the proofs of failing theorems were stubbed in the scratch
copy so that later modules were checked too), the claims whose theorems depend on them, and what was tightened.

## Trusted base

* Lean 4.33.0 kernel; every theorem depends at most on the axioms `propext`, `Classical.choice`, `Quot.sound`.  No
  other axioms, no compiled evaluation.
* The reading of the Python code: definitions were written by hand, each cites the lines it models; nothing was extracted or
  executed.
* Parameters with stated assumptions: the hash function (no collision among the contents hashed in the execution), lzo
  (identity on content), clock, floating point (exact results rounded to 53 bits, no overflow), date parsing (arbitrary partial function), YAML
  and JSON (return what they were given), POSIX primitives as in Model/Fs and Model/Locks, `rbd` commands (arbitrary results;
  where needed the assumption `Faithful`: what they write is the whole export or a prefix of a correct diff).
