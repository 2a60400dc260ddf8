# Design of the formal model of lumoa-oss/booktest

## 1. Approach

The Python code in `/repo/booktest` is modelled function by function in Lean 4 under
`lean/Verif/Model/`.  Models are total, computable functions over `List Char` (Python `str`),
`List`, `Nat`, `Option` and plain structures; exceptions, hangs and end-of-input are values
(`Option` / `Except`, or constructors such as `crashed`).  Concurrency is an inductive step relation.
Each definition cites the file and lines it models.

* `Verif/Py/*`     – the Python/OS primitives the code uses (`str.startswith`, `split`, `join`,
  text-mode reading, dictionaries, `sorted`, `os.path`, UTF-8, JSON, a file system).
* `Verif/Model/*`  – the model of booktest itself.
* `Verif/Spec/*`   – small, independent specifications (written without the model's helpers) used in
  the statements.
* `Verif/Lemmas/*` – helper proofs.
* `Verif/Props/*`  – the property theorems `Cnn_*` and, next to each, `example`s that show that
  a concrete non-trivial case meets the hypotheses.

Naming of theorems: a theorem that proves less than the claim in `properties.jsonl` ends in `_partial`;
a claim that is false for the code has a theorem `Cnn_…_refuted` with a concrete counterexample (the
negation, proved), beside the `_partial` theorem that holds.  `MANIFEST.json` says for each property
which theorems count and what is missing.

## 2. Trusted base

* Lean 4.33.0's kernel.
* Axioms: at most `propext`, `Classical.choice`, `Quot.sound`; section 8 lists them for each theorem.
  No axioms are added; no `sorry`, `admit`, `native_decide`, `bv_decide`, `implemented_by`, `unsafe`.
* Mathlib is used in one place (`Mathlib.Data.List.Forall2`).
* The reading of the Python source as Lean definitions (the code is not executed here).  The citations
  on the definitions are there so that this can be checked by eye; seeded faults
  (`seeded/LOG.jsonl`) check that the theorems notice when a definition is changed.
* The behaviour of Python, its libraries and the operating system as stated in section 5.

## 3. Models

| File | Code | Form of the model |
|------|------|-------------------|
| `Model/Tokenizer` | `tokenizer.py` | the unread suffix of the text; Unicode classification is a parameter |
| `Model/CaseRun` | `testcaserun.py`: printing, comparing, anchors, `tset`, tables, assertions, time limits, `end` | a state machine; a test is a list of API calls that may end with an exception; `none` is a hang |
| `Model/Format`, `Model/RelPath` | `value_format`, `rel_path` | functions on values and paths |
| `Model/Streams` | redirection of stderr and logging in `testcaserun.py` | global variables, stream contents, handlers |
| `Model/Review`, `Model/ReviewAll` | `review.py`: `interact`, `case_review`, `freeze_case`, `review` | answers of the user are a list, changes of files are a list of atomic steps |
| `Model/Console` | `review.py`: reports on the console | texts |
| `Model/Index` | `review.py`: `create_index` | text |
| `Model/Reports` | `reports.py`: `cases.txt` | bytes; durations are a parameter with print/parse |
| `Model/Run` | `testrun.py`: `cases_to_done_and_todo`, `run_async` | a trace of executions and of changes of `cases.txt`; a killed run is a prefix of it, with torn writes |
| `Model/Project` | the above together | runs on a file system |
| `Model/Selection` | `tests.py`, `dependencies.py`, `testrun.py`: selection and dependencies | recursion with fuel |
| `Model/Parallel` | `runs.py`: `ParallelRunner`, `parallel_run_tests` | labelled transition system of scheduler thread, workers and main thread; fairness for liveness |
| `Model/Plan`, `Model/Merge` | `runs.py`: order of the plan, number of workers, merging of outputs | functions |
| `Model/Cache` | `cache.py`, results of tests in `testrun.py` and `tests.py` | several process caches and the disk |
| `Model/Env`, `Model/Functions`, `Model/Requests`, `Model/Responses` | `env.py`, `functions.py`, `requests.py`, `httpx.py` | tests are decision trees, real functions and servers are arbitrary streams of answers |
| `Model/Naming`, `Model/Suites`, `Model/Detection` | `naming.py`, `testsuite.py`, `testbook.py`, `detection.py`, `cli.py` | functions on names, suites, directory trees and modules |
| `Model/Setup` | `utils.py`, process setup | generators as state machines |
| `Model/Config`, `Model/Commands` | `config.py`, `setup.py`, `tests.py`: settings, `--forget`, `--garbage`, `--clean`, `-l`, `--path` | dictionaries, file system |
| `Model/Depends` | `dependencies.py`: `depends_on`, `Resource`, `port`, arguments of tests; `testrun.py`: values of tests during a run | functions |
| `Model/Shell` | the `os.system` calls of `testcaserun.py`, `testrun.py`, `runs.py`, `tests.py`; `prepare_batch_dir`; exit status of the process | word splitting of the shell; command lines with other special characters are not modelled (`none`) |
| `Model/Worker` | `runs.py`: `job_config`, `run_tests`, `RunBatch.__call__`, what a worker writes to its report | functions over any world; the setup is a generator as in `Model/Setup` |
| `Model/Together` | `run_case` of several workers at the same time (`runs.py`, `testrun.py`, `testcaserun.py`, `review.py`) | interleavings of single file operations, for workers, for parallel runs with their reviews, for sequential runs that may be killed and for `review`; refines `Model/Project` (`run_case` in `Lemmas/Together`, `C104_is_run`) |
| `Model/Cli` | `tests.py`: `setup_parser`, reading of the parsed options in `exec_parsed`; `argparse` of Python 3.11.10: `parse_args`, `_parse_known_args`, `_parse_optional`, `_get_option_tuples`, `_get_values` | functions; `argparse` specialised to options with one or no argument and one positional argument |
| `Model/Exec` | `tests.py`: all of `exec_parsed`; `cli.py`: `main`, `exec_parsed` | one function from command line and world (files, report, settings) to world, printed text, executed tests and exit status; runs with workers are a status of their own (`workers`), modelled in `Model/Parallel`, `Model/Worker`, `Model/Together` |
| `Model/Patching` | `requests.py`: `start`, `_fake_send`, `_set_method`, `stop`; `httpx.py`: `start`, `handle_request`, `stop` | nested blocks as trees; one thread; every block is a new object |
| `Model/Gather` | `httpx.py`: `handle_async_request`, `lookup_snapshot` in several tasks; `requests.py`: `send` under the lock | steps of an arbitrary event loop |
| `Py/Dumps`, `Model/Hashing` | `functions.py`: `FunctionCall.__init__`, `from_properties`; `requests.py`, `httpx.py`: `json_to_sha1`, the objects of `RequestKey` | the text of `json.dumps`; floats are given by their text; SHA-1 is any function |
| `Model/Images` | `testcaserun.py`: `file`, `rename_file_to_hash`, `timage` | names without slashes; SHA-1 is any function with hexadecimal digests |
| `Model/Objects` | `testcaserun.py`: `TestIt`, `it`, `must_apply`, `must_contain`, `must_equal`, `must_be_a` | objects of any type; conditions are functions that may raise; texts of values and types are given |
| `Model/Batches` | `runs.py`: directories of `ParallelRunner.__init__`, `case_batch_dir_and_report_file` | after `prepare_batch_dir` of `Model/Shell` |
| `Py/Base64`, `Model/Bodies` | `requests.py`: `default_encode_body`, its use in `from_properties` | base 64 of Python's library; texts without lone surrogates |
| `Model/ParallelRun` | `runs.py`: `ParallelRunner`, `RunBatch`, `parallel_run_tests` together with `testrun.py`: `TestRun.run_case` and `review.py`: `case_review`, `freeze_case` | transition system of the scheduler, the workers and the main thread with single file operations; the reports of workers are written at once when they are closed; after the last record only the index is modelled, merged outputs are in `Model/Merge`; `output.txt`, `metrics.json` and the directories of the workers are not in its file system |
| `Model/ExecWorkers` | `cli.py`: `main`, `tests.py`: `exec_parsed` and `runs.py`: `parallel_run_tests` for commands that begin a run with workers | the configuration of the transition system of `Model/ParallelRun` and what the command leaves at its end; without coverage |
| `Py/Loads` | `json.loads`, `json.dumps(indent)` as used by `functions.py`, `env.py`, `requests.py`, `httpx.py`, `reports.py` | scanner of Python's library; floats are kept as their texts; lone surrogates are not texts |
| `Model/SnapshotFiles` | `functions.py`: `FunctionCall`, `FunctionCallSnapshot`, `SnapshotFunctions`; `env.py`, `requests.py`, `httpx.py`: `start`, `stop`, `json_object`, `from_json_object`; `reports.py`: `Metrics` | the texts of the files; the files themselves are in `Model/Functions`, `Model/Requests`, `Model/Env` |
| `Model/Values` | `runs.py`: `RunBatch`, `PROCESS_LOCAL_CACHE`; `dependencies.py`: `call_class_method_test`, `call_function_test`; `testrun.py`: `get_test_result`, `save_test_result`, `run_case` as far as values are concerned | transition system of the runner and its workers with single accesses to results; storing a value is one step; killed workers are left out; the test functions are functions of their arguments |
| `Model/Dependents` | `testrun.py`: `run_case`, `run_async` with the cache and the result files; `runs.py`: workers that load results before they call their test | loading a result is one step; a value is its pickled form; the tests whose results are loaded are given (found in `Model/Depends`) |
| `Model/ExecDependents` | `cli.py`: `main`; `tests.py`: `exec_parsed`; `runs.py`: `run_tests`, `parallel_run_tests` for tests with dependencies | what `Model/Exec` and `Model/ExecWorkers` leave out; the tests whose results are loaded are given, `Linked` says that they are those of `Model/Depends` |
| `Model/TmpFiles` | `testcaserun.py`: `tmp_path`, `tmp_dir`, `tmp_file`; `testrun.py`: `run_case`, `run_async` for tests that use them | what `Model/Project` leaves out otherwise; temporary files are used before the other calls of the test, and the test looks at nothing else; `notFound` stands for every error about the directory of a path |

## 4. Methods of proof

* Text algorithms: induction on length or structure, uniqueness of decompositions (`split`/`join`).
* `TestCaseRun`: invariants over all API calls by one relational principle
  (`Lemmas/Exec: exec_rel`, `execAll_rel`), cursor refinement (the snapshot reader is an index into the
  list of lines), lock-step simulation of two runs for accept-and-rerun.
* Files: pointwise reasoning on paths; crash safety by quantifying over all prefixes of the steps.
* Sequential runs: induction over the list of tests; sequences of complete and killed runs.
* Parallel runs: inductive invariants of the transition system (`inv_reach`, `rinv_reach`), progress
  from every reachable state (`can_complete`), liveness under fairness (`C38_fair`), agreement with the
  sequential run through the recorded results (C90).
* Caches and snapshots: refinement to a map; simulation of capture and replay.

## 5. What is assumed or left out

Python and the operating system:

* Text is a list of Unicode scalar values.  `isnumeric`, `isalnum`, `isupper`, `isspace`, `lower` are
  arbitrary functions (`Unicode`), with only the laws that a theorem states.
* Files are read with universal newlines; the encoding is UTF-8 (only for `cases.txt` are bytes
  modelled, including undecodable ones).  Writes are atomic unless the theorem is about torn or
  interrupted writes.  Permissions, full disks, symbolic links and other processes that change files
  are not modelled.
* Floats are abstract (`Durations`: a type with printing and parsing that round-trip; `C91` uses their
  order).  Time is not modelled, except as arbitrary numbers.
* `pickle` gives back what was put in.  (That JSON and base 64 do is proved for models of `json.loads` and
  `binascii.a2b_base64`, C119 to C122.)  SHA-1 is an arbitrary function;
  theorems that need the absence of collisions say so, for the texts of the run
  only (so that SHA-1 can satisfy the hypotheses).
* Sets are enumerated in an arbitrary order; `os.listdir` and `os.walk` list in an arbitrary order
  (`os.walk`: the files of a directory before those in directories below it).
* The GIL makes the steps of `PStep` atomic; code under the same lock is one step.
* The recursion limit is modelled as fuel; memory is unlimited.
* `argparse` is modelled from the source of Python 3.11.10 for the parser of `setup_parser` (`Model/Cli`); the error messages, the help and `argcomplete` are not, and `int(text)` and the regular expression for negative numbers are parameters.
* The shell: names with characters special to the shell are excluded where `os.system` is used.

### 5.1 Parts of the code that are not modelled

* Import lists and re-exports (`__init__.py`, `__main__.py`, `booktest.py`), `coroutines.py` and the
  event loop (`async` functions are modelled as if called directly).
* Pictures and data frames as such: `timage`, `tdf` takes the cells as texts.
* Calls of external tools (diff viewers, pagers), tracebacks and log messages of booktest itself,
  coverage measurement (except for the files it writes at the end of a run).
* Threads in tests (except that requests of threads are a special case of `Model/Gather`); the libraries `requests` and
  `httpx` themselves, of which `Model/Patching` assumes how `Session.send` uses `get_adapter` and follows redirects.
* Test functions that bypass the API: they do not write below the snapshot and output directories
  except through `t.file`, and do not change booktest's objects.

Each model file begins with the simplifications that concern it.

## 6. Properties

Status and notes are those of `MANIFEST.json`.

| Id | Claim | Status | What is proved, what is missing |
|----|-------|--------|------|
| C01 | Tokenizing loses nothing | proved | All NUL-free texts, every Unicode classification. |
| C02 | Tokenizing always finishes | partial | As stated it is false: a NUL character makes the loop infinite (C02_finishes_refuted). Proved: the loop finishes iff there is no NUL, within one iteration per character. |
| C03 | Newlines delimit tokens | proved | Newline is always its own token; tokens of lines joined by newline. |
| C04 | The output file is exactly what the test printed | proved | Every call sequence except ifloatln/tmsln, which by design quote the old value (C04_quoting_refuted shows the dependence). |
| C05 | Ignored text never influences the verdict | proved | Every state, every snapshot. |
| C06 | Checked lines are compared exactly, line by line | proved | Programs of tln/iln lines (newline-free, NUL-free), complete report characterised. |
| C07 | A passing test reproduces its whole snapshot | partial | Refuted as stated: a strict prefix of the snapshot passes (C07_whole_refuted). Proved: OK iff the output lines are a prefix of the snapshot lines. |
| C08 | Accept, rerun, pass | partial | Refuted as stated: token straddling two calls, carriage return, repeated set item, anchor inside a line (C08_*_refuted). Proved for all other programs (C08_rerun_partial), and without alignment hypotheses for whole-line programs (C08_lines_partial). |
| C09 | A test that calls fail() fails | partial | Refuted for a fail() on a line that is never finished (C09_fail_refuted). Proved: FAIL whenever a line is finished after fail(); unconditional for assertions and time limits. |
| C10 | A test that raises fails | partial | Refuted for messages containing NUL, which hang the handler (C10_nul_refuted). Proved for all other messages. |
| C11 | No failure without a cause | proved |  |
| C12 | A test without a snapshot never passes by itself | proved | The difference count is 0 unless the test calls diff() itself. |
| C13 | Anchors find the right place | proved | All reachable states. |
| C14 | Sections may come in any order | proved | With headers that do not occur as body lines; C14_header_in_body_refuted shows this hypothesis is needed. |
| C15 | tset compares sets | proved | Called at the beginning of a line. |
| C16 | Every printed line is reported once | proved | Log of committed lines; error marks characterised per call. |
| C17 | A failed test is never accepted | proved | For every configuration, every input and every file system. (The string "FAIL" that make_case builds for a lost worker is not a TestResult and is treated in C40.) |
| C18 | Snapshots change only on acceptance | proved | Characterised by the first deciding answer and the flags. |
| C19 | Acceptance installs exactly the new output | proved | Pointwise for every path. |
| C20 | Accepting one test leaves the others alone | partial | Refuted for nested names (C20_nested_refuted). Proved for all other pairs of names, from every state. |
| C21 | A crash while accepting does not corrupt the snapshot | partial | Refuted as stated: text and resources are not replaced together (C21_atomic_refuted, C21_retry_refuted). Proved: the text is always one of the two, new resources are never lost, nothing else is touched. |
| C22 | Accepting is safe to repeat | partial | Refuted for -u (C22_update_refuted; C22_second_accept for all states). Proved without -u and -I. |
| C23 | The case report file round-trips | proved | With the hypothesis of the statement; C23_tab_refuted shows it is needed; C23_stable needs none. |
| C24 | A torn case report never invents a result | partial | Proved for every cut position where the file can be decoded (C24_torn, C24_ascii_readable). Refuted for a cut inside a multi-byte character: reading raises (C24_multibyte_refuted). |
| C25 | Continue skips exactly the passed tests | proved |  |
| C26 | Interrupted runs can be continued | proved | For every sequence of complete and killed sequential runs, with byte-level torn writes. |
| C27 | The exit code tells the truth about the executed tests | proved |  |
| C28 | Fail fast stops at the first failure | proved | Recording of what was executed is in C29_each_once. |
| C29 | Every selected test is executed once, in order | proved |  |
| C30 | Selection matches whole path components | partial | Refuted for test names that start with skip: (C30_skip_name_refuted). Proved for all other names and every argument list. |
| C31 | Selected tests and their dependencies, each once | proved | C31_computed in addition: the list is computed whenever dependencies are acyclic and shorter than the recursion limit. |
| C32 | Dependencies come first | proved | Whenever the list is computed, which fails only with RecursionError (C31_computed). |
| C33 | Cached dependencies are reused unless refreshed | proved |  |
| C34 | The scheduled dependency is the one that is used | partial | Refuted with inheritance (C34_inherited_refuted). Proved when the scheduler resolves the dependency to some test. |
| C35 | Exclusive resources are never shared | proved |  |
| C36 | Parallel runs respect dependencies | proved | C36_declared: in terms of the dependencies declared in the suite. |
| C37 | Parallel runs start each test at most once | proved |  |
| C38 | Parallel runs do not get stuck | proved | C38_starts: the scheduler always starts a test. C38_fair: every fair execution completes (for workers that leave a report and reviews that end). C38_completes: from every reachable state the run can be completed. |
| C39 | Every parallel result is reported exactly once | proved | For workers that leave a report and tests with different batch directories (Behaved). C39_genuine: also with aborts and exceptions no test is recorded twice. |
| C40 | A dying worker is reported as a failure | partial | Refuted: a worker without a report file makes the run raise (C40_no_report_refuted) or can be accepted (C40_accept_refuted); an empty report kills the scheduler (C40_empty_refuted), after which the run hangs (C40_hang_refuted). Proved for workers whose test ends. |
| C41 | Parallel batches do not collide | partial | Refuted for names with dots (C41_dots_refuted). Proved for names without dots. |
| C42 | A dependent test gets the value its dependency returned | partial | Proved for dictionaries and LruCaches of positive size, for values other than None. Refuted for None once it leaves the cache (C42_none_refuted), for LruCache(0), for NoCache (never returns), and for dependents that change the object they receive (C42_mutated_refuted). |
| C43 | The memory cache is bounded and keeps the most recent entries | proved |  |
| C44 | Dependency values do not depend on the worker process | partial | Proved for dependencies that save a result in this run (C44_this_run_partial) or are not run (C44_earlier_run_partial), for all interleavings and assignments to processes. Refuted for failing dependencies, whose dependents get the value of an earlier run (C44_failed_refuted). |
| C45 | mock_env restores the environment | proved | dictionaries with string/None values; other values leak (refuted) |
| C46 | snapshot_env replays the captured variables | partial | replayed values proved; restoring needs that variables unset before are set at the end; None snapshots, capture of unset variables and repeated names refuted |
| C47 | A missing env snapshot does not leak | partial | refuted; exactly which variables leak is proved |
| C48 | mock_missing_env only fills gaps | partial | capture mode mocks all the same (refuted); restoring needs the test not to unset mocked variables |
| C49 | Function snapshots replay without calling the function | proved | C49_recorded needs one snapshot per call, which C51_files guarantees for files booktest wrote |
| C50 | Captured function calls replay identically | partial | refuted when a call is repeated with different answers; proved when equal calls got equal values |
| C51 | Function snapshots keep exactly the calls that were made | proved |  |
| C52 | Captured request sequences replay identically | partial | refuted for requests that raise, for binary contents and for caseless header lookups; proved for all other runs, with stateful servers |
| C53 | No secrets in stored requests by default | proved | URLs and responses are stored in full; the claim is about request headers and bodies |
| C54 | Ignored headers are really ignored | proved |  |
| C55 | Custom hashing also covers repeated requests | partial | refuted for repeated requests that only the custom hash identifies; proved for the same requests |
| C56 | Patched functions are put back | partial | refuted for nested blocks on the same function, functions of classes and start errors; proved for functions that are what they were defined as |
| C57 | Teardown always runs | proved |  |
| C58 | Configuration priority | partial | proved with the file read in place of the home file; refuted: the home file is looked for in a directory named ~, and --parallel-count 0 is ignored |
| C59 | Runs do not inherit flags from earlier runs | partial | refuted for options left by earlier calls in the same process; the exact dependence is proved |
| C60 | Cleaning never removes live snapshots | partial | proved for test names without empty parts; refuted for names such as a//b; --clean also removes the case report |
| C61 | The index links every test once | partial | proved for names without newlines and square brackets; refuted for a name with a newline |
| C62 | Test names are derived predictably | partial | proved with "not upper case" in place of "lower case" (the literal wording is refuted: digits and underscores count as lower case) |
| C63 | Suites compose | partial | merging is proved in full; dropping an added prefix is refuted for the empty suite name and for names that start with a slash, proved otherwise |
| C64 | Test books list their tests in definition order | partial | refuted for class bodies with del; proved otherwise; inherited tests are not listed |
| C65 | Forgetting a test makes it run again | partial | proved for the tests that the selection resolves to; refuted for the tests named on the command line: dependencies without stored results are forgotten too |
| C66 | Reviewing keeps the records | proved | C66_read_only in addition. |
| C67 | Tables are aligned and stable | proved | Alignment for all tables; stability for tables without NUL and without carriage return in column names. |
| C68 | Image paths are relative to the book | partial | refuted for directories next to the output directory whose name begins with its name, and for the root; proved otherwise |
| C69 | tformat shows the shape and nothing else | partial | at the level of the printed text; refuted for keys of different types with the same text, types with the same name and the order of keys; proved otherwise |
| C70 | Every test can be selected on the command line | partial | refuted for names that start with a slash or skip: and for a first part named *; proved otherwise |
| C71 | A number is one token | proved | A number with sign and fraction is one token. |
| C72 | Starting one test leaves the outputs of other tests alone | partial | Refuted for nested names (C72_purge_refuted). Proved: exactly the directory of the test and that of its temporary files are removed. |
| C73 | The exit code of a parallel run reflects its results | partial | Refuted for interrupted runs (C73_interrupt_refuted). Proved for runs that are not aborted. |
| C74 | Tokens are maximal runs | proved | complete characterisation of __next__ on NUL-free texts, with uniqueness |
| C75 | Mixed lines are compared token by token | proved | all calls that only print (anchors, headers, sets and quoting calls are covered by C13-C15, C76) |
| C76 | ifloatln quotes the old value | proved | ifloatln as the only call on its line; NUL-free snapshot |
| C77 | The listing of function snapshots is stable | partial | refuted when a call is repeated; proved when no call is made twice |
| C78 | The listing of request snapshots is stable | proved | assumes no hash collisions among the keys of the requests of the run (HashOK, C111_hashes) |
| C79 | Setup writes what is read | partial | refuted for a confirmed boolean value that reads back as a different value; proved for answers and string values |
| C80 | Listing shows what a run would do | proved | sequential runs |
| C81 | Accept everything, run again, everything passes | partial | proved for plain names that are not nested and tests that can be repeated in the sense of C08; refuted for a test called index, whose snapshot is overwritten by the index |
| C82 | A plain run changes no snapshot | proved | sequential runs; test functions write only through t.file |
| C83 | Tests do not influence each other | partial | proved for plain names that are not nested, without dependencies; refuted for nested names |
| C84 | Messages of a test go to its log | partial | log file contents and handlers proved for every sequence of tests; refuted for sys.stderr: after every test it is the closed log file (open() saves the None that __init__ has put there); refuted for handlers after Ctrl-C |
| C85 | The console report says what happened | partial | sequential runs and --review proved; names without line breaks; refuted in parallel runs for a test whose worker left no report: it has no result on the console and its line runs into the next one |
| C86 | A stored case is shown like the live one | partial | proved if no carriage return is printed and logs are not shown, empty, or the name has one part; refuted in general: live logs are shown under the last part of the name, and a carriage return splits a stored line |
| C87 | Exactly the tests in test files are found | proved | imports are a function of the module name; members of modules are given by kind |
| C88 | Detected tests have distinct names | partial | proved for function tests in files that differ in more than their suffix below paths that are not nested; refuted for foo_test.py next to foo_book.py and for a test book imported into another test file |
| C89 | The process setup is that of the project | partial | which path proved; refuted for the listing order: with several __booktest__.py below a path the last one listed wins |
| C90 | Parallel and sequential runs agree | proved | for completed runs without a user or fail fast, tests whose results depend only on their dependencies, and with -a no result DIFF before acceptance; the order of records may differ |
| C91 | Slow tests are started first | partial | the order is proved in full; that the set of tests started does not depend on the enumeration is proved if no two remaining tests share a resource, and refuted otherwise |
| C92 | The number of workers is the one asked for | partial | proved for all options and for settings other than 1; refuted for parallel=1 in a file or in the environment, which gives one worker for each CPU |
| C93 | The output of a parallel run is that of its tests in order | partial | proved for texts of complete lines without carriage returns that are not all empty, in particular for the reports of single tests in all modes; refuted for empty texts (one empty line is written) and for two tests that share a batch directory |
| C94 | Tests receive the values of their dependencies | partial | proved for sequential runs and at most one depends_on on a function, under any other decorators; a test for which a dependency has no value may, instead of failing, be given None if None is the value in the cache; refuted for two depends_on on one function (the values of the outer one are dropped, the dependencies of the inner one are not scheduled) |
| C95 | Declared resources are exclusive | partial | proved for at most one depends_on on a function; refuted for two (the resources of the inner one are not reserved) and for the text port=80, which is the resource of port 80 |
| C96 | Directories made by the shell are the right ones | partial | proved for names and directories without characters that are special to the shell and without a leading -; refuted for blanks, for every state of the files |
| C97 | Preparing a parallel run removes nothing but old batches | partial | proved for directories without special characters; refuted for blanks: with the books in "my books" the directory "my" is deleted |
| C98 | --print prints the snapshots | partial | proved for names and directories without special characters; refuted for blanks |
| C99 | The exit status tells success | partial | proved for sequential runs that come to their end and parallel runs that are not aborted; refuted for --view, which exits with 0 whatever the viewer does |
| C100 | Tests come to an end | proved | for environments whose number format produces no NUL; a test that can be repeated (C08) needs no hypothesis at all. The loops over snapshot lines have fuel in the model; Lemmas/Cursor proves that it suffices. |
| C101 | Only passed tests are skipped, whatever happened before | proved | for names without tabs and line breaks; in parallel runs the reports that workers leave, if any, are about their own test (batch directories do not collide, see C41), and workers may die, leave nothing or leave broken reports |
| C102 | Workers ask nothing and report on their own test | partial | for names without dots, tabs and line breaks; in parallel runs a teardown that raises is ignored and the worker returns the exit code of the test (C102_teardown_refuted) |
| C103 | Tests that run at the same time do not disturb each other | partial | for plain names that are not nested, without which it is false (C103_nested_refuted), and tests that touch files only through t.file; one test per worker, without dependencies between tests. mkdir -p makes one directory per step, the other operations are atomic; the report of the batch and metrics.json, which all workers write, are left out |
| C104 | Snapshots are accepted outputs, whatever is killed | partial | for plain names that are not nested, without which it is false (C104_nested_refuted), and tests that touch files only through t.file. Interrupted writes, --clean and other changes of outputs between runs are included as changes elsewhere; booktest --review, which accepts outputs of earlier runs, is not among the runs (see C17-C21), nor is the review of a made-up failure after a worker that crashed |
| C105 | --review accepts the output of the latest execution | partial | for plain names that are not nested and tests that touch files only through t.file. A test whose worker crashes is recorded as failed: the made-up result is a string in the code, with which an interactive user can accept whatever output is there (see C102), and this is left out (C118_early_refuted is an example). The premises for parallel runs are proved for their model in C118. Cleaning up outputs comes together with the removal of the report |
| C106 | The command line is understood as it is meant | proved | argparse is modelled from its source in Python 3.11.10. Two expectations are refuted beside it: names in several pieces are an error (C106_pieces_refuted), and --parallel-count 0 makes no setting (C106_zero_refuted) |
| C107 | Commands do what their words say | partial | C107_rejected, C107_looking, C107_list and C107_forget are full for runs in one process; missing: runs with workers (their effects are C125, and C35-C41, C90, C103, C104, C117_workers and C118), and in C107_accept_rerun_partial what is missing in C81; C126 has accepting and running again with workers |
| C108 | HTTP mocks are confined to their blocks | partial | C108_inside and C108_httpx hold for all tests; outside of blocks C108_outside_partial is for sessions whose class does not override get_adapter or that are not used in a block. Refuted for the others (C108_outside_refuted): the attribute that is set on the session after a request hides the method of its class. |
| C109 | Concurrent requests are replayed, whatever the order | partial | For tests in which equal requests are made by the same task (and, as in C52, every request is answered): every schedule of capture and replay. Refuted for equal requests of different tasks: C109_refuted (both get the same key, an answer is lost, the replay misses a snapshot) and C109_order_refuted. |
| C110 | Function snapshots are told apart by function and arguments | partial | C110_told_apart_partial and C110_replay_partial hold for all calls whose arguments JSON gives back as they are (no tuples, only strings as keys), up to the module of the function. Refuted beyond that: functions of the same qualified name in two modules (C110_module_refuted, C110_modules_refuted), tuples (C110_tuple_refuted), numbers as keys (C110_key_refuted); and the same call with keyword arguments in another order is not found (C110_order_refuted). |
| C111 | Requests are told apart by what is not ignored | proved | C111_same; C111_digest and C111_hashes reduce the assumptions of C52, C55, C78 and C109 to SHA-1 not colliding on the finitely many keys of a run. The custom hashes of json_to_hash are C55. |
| C112 | Assertions about objects decide the verdict | proved | C112_fails_iff (tests that do not also call t.fail(), whose mark on an unfinished last line is C09), C112_calls, C112_be_a, C112_contain_equal. |
| C113 | Pictures are kept and compared by their contents | proved | File names are names without slashes, the digests of the pictures of the run do not collide, and no picture is written under the name of a digest. Pictures missing at the end of the output are C07. |
| C114 | A parallel run does not use reports of earlier runs | partial | Refuted for directories with blanks (C114_blank_refuted). Proved for paths of characters that are not special to the shell, for the start of the workers (C114_started) too. The directories of different tests are different (C41). |
| C115 | Real calls are made once and passed through unchanged | proved | Requests that a test makes one after the other; requests at the same time are C109. |
| C116 | Requests with different bodies are different | proved | C116_encoding, C116_decodable, C116_same. Texts are sequences of Unicode scalar values (no lone surrogates, which raise). |
| C117 | Snapshots in sessions of commands | proved | C117_change (commands), C117_killed (commands killed at any moment), C117_workers (runs with workers at any moment), C117_unasked, C117_snapshots, C117_record; in directories without oddities (no file in the way of a test). C117_clean_refuted: the record claim fails if --clean is killed and a test is in no directory; this is left out of sessions. |
| C118 | Parallel runs and their files, operation by operation | partial | Refuted without the assumption that the user is not asked about tests whose worker died early (C118_early_refuted); proved with it: C118_refines, C118_exclusive, C118_dependencies, C118_snapshots, C118_records, C118_others. The names of the directories of the workers differ (C41). |
| C119 | JSON texts give back what was written | partial | Proved for values with string keys and without tuples (C119_same), with tuples read as lists (C119_read_back), and that texts tell values apart (C119_distinct); for every value it is refuted (C119_every_value_refuted). Floats are given by their texts. |
| C120 | A partly written JSON file is never read | proved | C120_part_not_read for objects, lists, tuples and strings; C120_numbers_refuted shows why numbers are left out (no snapshot file is one). |
| C121 | Function snapshots through the texts of their files | partial | Refuted that replayed values have the types of the recorded ones (C121_same_type_refuted); proved up to tuples being lists: C121_file, C121_rewritten, C121_replay, C121_written. |
| C122 | Snapshot files can be read by the next run | proved | C122_requests_run, C122_httpx_run and C122_env_run for runs, C122_requests, C122_httpx, C122_env, C122_metrics for files and C122_base64. That headers have distinct names is true of the dictionaries that both libraries give. |
| C123 | A parallel run leaves the files, records and exit code of a sequential run | partial | C123_same_files_partial and C123_complete are full without -u and questions to the user, and with -f if every test is OK or accepted. Refuted for -u (C123_update_refuted) and for -f if tests fail (C123_fail_fast_refuted). The outputs that are merged after the last record are in C93 |
| C124 | Parallel runs come to their end with the results of a sequential run | proved | with the conditions of the statement: plain names that are not nested, SoundTree, no hanging test; C124_exists shows that fair executions exist; C123_update_refuted shows why -u is excluded |
| C125 | booktest -p leaves what booktest leaves | proved | with the conditions of the statement: plain names, different batch directories, SoundTree, no hanging test, nothing but operations of tests fails |
| C126 | What has been accepted passes from then on | proved | for plain names that are not nested, different batch directories and tests that can be repeated (C08), without which it is false by the refutations of C08 and C81 |
| C127 | Tests get the same values with and without workers | partial | C127_same_values_partial and C127_ends_partial need tests with at most one depends_on (see C94_stacked_refuted), dependencies that the scheduler finds (see C34_inherited_refuted), and dependencies that return a value (C127_none_refuted) |
| C128 | Every test is called with the values that are stored at the end of the run | partial | C128_stored_values_partial and C128_any_cache_partial need that nobody is asked, SoundTree, plain names, and that tests that others depend on return a value; C128_none_refuted shows that it is false for None with LruCache(8) |
| C129 | Workers and dependencies give what a sequential run gives | partial | C129_same_files_partial, C129_complete and C129_ends need that nobody is asked, no -u (see C123_update_refuted), SoundTree, plain names that workers can tell apart, and that tests that others depend on return a value (see C127_none_refuted); C129_exists shows that fair executions exist |
| C130 | booktest -p leaves what booktest leaves when tests get the results of others | partial | C130_option_partial and C130_same_partial need that nobody is asked, no -u, SoundTree, plain names that workers can tell apart, tests with at most one depends_on (see C94_stacked_refuted), dependencies that the scheduler finds (see C34_inherited_refuted), and dependencies that return a value (C130_none_refuted); C130_values_partial needs no restriction on -u, -f or coverage |
| C131 | What has been accepted passes from then on when tests get the results of others | proved | for plain names that are not nested, different batch directories, tests with at most one depends_on whose dependencies the scheduler finds and return a value (refuted otherwise: C94_stacked_refuted, C34_inherited_refuted, C130_none_refuted), and tests that can be repeated (C08) |
| C132 | Temporary files are private to one execution of a test | proved | A test uses its temporary files before its other calls; paths below the directory of temporary files only. |
| C133 | An interactive run is the dialogue with the user | partial | C133_dialogue, C133_no_answer and C133_consent are full for plain names that are not nested and tests that touch files only through t.file. C133_accepted_partial needs that the user has not stopped the run and tests that can be repeated (see C08); refuted otherwise: with -I and q at a test that is OK the run ends with success though other tests have not been executed (C133_quit_refuted) |
| C134 | A run that is reviewed afterwards is an interactive run | proved | for plain names that are not nested, tests that end and that touch files only through t.file; the review looks at the selected tests |
| C135 | A parallel run with questions is the dialogue in the order of its records | partial | C135_dialogue and C135_in_order are full for plain names that are not nested, different batch directories, tests that touch files only through t.file, without -a and -u, and if workers that may die before they open their report are not asked about (otherwise C118_early_refuted); that the order of the tests makes no difference is refuted (C135_order_refuted) |
| C136 | A review needs a run that has come to its end | partial | all theorems are full for commands without -p (runs with workers write the file when they end, see C125); that whatever has been recorded can be reviewed is refuted (C136_recorded_refuted); C136_clean is for projects in which no test has the name of metrics.json |
| C137 | booktest and then booktest -w are booktest with questions | proved | for tests without dependencies, plain names that are not nested, tests that end and that touch files only through t.file |
| C138 | A review is the dialogue with the user in the order of the report, also after a run with workers | proved | C138_review is about any report; C138_workers is for tests without dependencies, plain names that are not nested and whose batches have different directories, tests that end and that touch files only through t.file, and fair schedules in which no process breaks |
| C139 | After a review that succeeds the tests pass | partial | C139_review_partial, C139_workers_partial and C139_forever_partial (any further commands exit with 0, with workers or without) need tests that can be repeated (see C08); C139_accept_all does not. Tests without dependencies, plain names that are not nested and whose batches have different directories, tests that end and that touch files only through t.file, fair schedules in which no process breaks |
| C140 | A review that was left can be continued | partial | tests that can be repeated (see C08), reviews without -c, -I and -u (with -I or -u a test that was accepted before would be accepted again, but its output is gone), plain names that are not nested, tests that end and that touch files only through t.file. Sittings is about the records that the review before has left; that they are read back as they were written is C23 |
| C141 | A run and as commands any number of reviews | partial | as C140; tests without dependencies; with workers, batches that have different directories and fair schedules in which no process breaks. All reviews select the same tests as the run. C141_interrupted_refuted: after a review in which the lines end (or Ctrl-C) this does not hold |

## 7. Behaviour found while proving

Claims that turned out to be false for the code (each is a theorem `…_refuted`, with a witness), by
subject:

* Comparison: a strict prefix of the snapshot passes (C07); `fail()` on an unfinished line is lost
  (C09); NUL characters hang the tokenizer (C02, C10); a token that straddles two calls, a carriage
  return, a repeated `tset` item or an anchor inside a line make an accepted test differ (C08).
* Acceptance: text and resources are not replaced together (C21); `-u` freezes twice and loses
  resources (C22); a review that is left by an exception stores what was accepted but writes no report, so that the next
  review that accepts the same test raises (C141); accepting or starting `a` removes the files of `a/b` (C20, C72, C83); a test called
  `index` loses its snapshot to the index (C81).
* Parallel runs: a worker without a report raises, is accepted or hangs the run (C40); an old output becomes the
  snapshot if the user accepts a test whose setup has failed in the worker (C118); with `-u` a run with workers raises after
  the first test that is OK (C123); with `-f` it depends on the order of ends which test stops the run (C123); a test that
  depends on one without a value passes in a sequential run and may fail in a parallel one (C127); an interrupt
  loses the record under review (C73); names that differ in dots share a batch directory (C41, C93);
  `parallel=1` in a file or the environment means all CPUs (C92); which of two tests that share a
  resource goes first depends on the hash seed (C91).
* Dependencies: inherited methods are resolved differently by scheduler and runner (C34); a `None`
  result is lost with the cache entry (so that eight tests in between make a dependent fail, C128), dependents of a failed test get the value of an older run (C42,
  C44).
* Mocks and snapshots: nested mocks restore the wrong function (C56); missing snapshots leak variables
  (C47); repeated calls with different answers are not replayed (C50, C77); binary contents and
  caseless headers are lost (C52).
* Command line: `--setup` drops other settings (C79); the home configuration is looked for in a
  directory called `~` (C58); flags of an earlier call stick (C59); `--forget` forgets dependencies
  (C65); `foo_test.py` and `foo_book.py` give the same names (C88); only the last `__booktest__.py` of
  a path counts (C89).
* Shell commands: paths are not quoted; with the books in a directory `my books` a second parallel run
  deletes the directory `my` (C97) and old reports of workers stay (C114), directories with blanks are never made (C96); `--view` always exits
  with 0 (C99).
* Several `depends_on` on one function: the values of the outer ones are dropped, the dependencies and
  resources of the inner ones are not scheduled or reserved (C94, C95).
* Workers: an exception of the process teardown makes a sequential run fail, in a worker it is only
  printed; an exception of the setup becomes `UnboundLocalError` (C102).
* Requests: a session of a class that overrides `get_adapter` loses the override in a block (C108); equal requests of
  tasks that run at the same time get the same key, an answer is lost and the replay fails (C109).
* Function snapshots: the module of the function is not hashed, so that `a.f()` is replayed with the
  result of `b.f()`; tuples are taken for lists and numbers as keys for strings; keyword arguments in
  another order are another call (C110); a function that returns a tuple returns a list in a replay (C121).
* `--clean`, killed midway with tests in no directory, can leave the report without outputs; `--review -a` then removes the files
  of the snapshot and fails (C117).
* Output: `sys.stderr` is the closed log file after every test (C84); a name with a newline breaks the
  index (C61); live logs are shown under the last part of the name (C86).
* `-I`: `q` at a test that is OK ends the run with success though the tests after it have not been executed (C133).
* `-p -i`: the questions come in the order in which workers end, so the same answers may accept the output of another test than
  without `-p` (C135).
* `--review` reads `metrics.json`, which it does not use, before the report, and this file is written only when a run ends: after a
  first run that is interrupted, what has been recorded cannot be reviewed (`C136_recorded_refuted`), nor anything after `--clean`
  (`C136_clean`).
* The exit status of a review vouches for tests that the user has not reached, that of a run with questions does not:
  after `booktest -I` and `q` at a test that is OK the exit status is 0 though other tests differ (C133_quit_refuted),
  whereas `booktest -w -I` with the same answer counts their records (C139_review_partial).
* Read only, not modelled: `run_tests_async` in `runs.py`, which nothing calls, awaits the number that
  `test_result_to_exit_code` returns, which raises a `TypeError`.

## 8. Axioms of the theorems

As printed by `#print axioms`, for all theorems named in `MANIFEST.json`:

* none (8): `C56_start_error_refuted`, `C57_log`, `C57_once`, `C57_no_setup`, `C57_process`, `C63_merge_unique`, `C102_sequential`, `C102_teardown_refuted`.
* `propext` (19): `C42_no_cache_refuted`, `C46_none_snapshot_refuted`, `C46_duplicate_refuted`, `C47_first_missing`, `C48_capture_refuted`, `C48_none_refuted`, `C53_headers`, `C56_elsewhere_refuted`, `C57_stacked_ok`, `C62_snake_unique`, `C71_number_token`, `C99_view_refuted`, `C102_batch`, `C108_inside`, `C108_outside_partial`, `C108_outside_refuted`, `C108_httpx`, `C127_calls`, `C132_alone`.
* `Quot.sound` (2): `C57_result`, `C57_default`.
* `Quot.sound`, `propext` (52): `C01_lossless`, `C02_finishes_refuted`, `C02_finishes_partial`, `C02_steps_partial`, `C03_newline`, `C15_start`, `C34_scheduled_used_partial`, `C42_size_zero_refuted`, `C45_mock_env`, `C45_nested`, `C46_starts`, `C46_seen`, `C46_independent`, `C46_restored_partial`, `C46_stop_iff`, `C46_capture_replay`, `C46_complete`, `C46_written`, `C46_capture_unset_refuted`, `C47_leak_partial`, `C48_mock_missing_partial`, `C52_replay_partial`, `C52_default`, `C52_offline`, `C52_complete`, `C52_legacy`, `C53_stored`, `C54_headers`, `C54_others`, `C54_stored`, `C55_same_partial`, `C56_restored_partial`, `C56_patched`, `C56_nested_refuted`, `C57_stacked`, `C61_parts`, `C62_snake`, `C62_letters`, `C63_merge`, `C63_merge_mem`, `C63_decorate`, `C66_passed`, `C74_token`, `C74_unique`, `C91_slowest_first`, `C91_deterministic_partial`, `C102_no_setup`, `C108_httpx_network`, `C109_progress`, `C109_captures`, `C109_offline`, `C116_decodable`.
* `Classical.choice`, `Quot.sound`, `propext` (436): `C03_lines`, `C04_output`, `C04_snapshot_independent`, `C04_quoting_refuted`, `C05_no_mark`, `C05_ok`, `C06_exact`, `C07_whole_refuted`, `C07_prefix_partial`, `C07_same_length_partial`, `C08_rerun_refuted`, `C08_carriage_return_refuted`, `C08_set_refuted`, `C08_anchor_refuted`, `C08_rerun_partial`, `C08_lines_partial`, `C09_fail_refuted`, `C09_fail_partial`, `C09_assert`, `C10_nul_refuted`, `C10_raise_partial`, `C11_no_cause`, `C12_never_ok`, `C12_no_diff`, `C13_seek`, `C13_anchors`, `C13_anchorln_found`, `C14_standing`, `C14_any_order`, `C14_document`, `C14_header_in_body_refuted`, `C15_tset`, `C16_report`, `C16_error_lines`, `C16_error_marked`, `C17_fail_not_accepted`, `C18_not_accepted`, `C18_input_ends`, `C18_accepted`, `C19_exact`, `C20_nested_refuted`, `C20_isolation_partial`, `C21_atomic_refuted`, `C21_retry_refuted`, `C21_crash_partial`, `C22_second_accept`, `C22_update_refuted`, `C22_repeat_partial`, `C23_round_trip`, `C23_tab_refuted`, `C23_stable`, `C24_torn`, `C24_ascii_readable`, `C24_multibyte_refuted`, `C25_continue`, `C26_skips_only_ok`, `C26_keeps_records`, `C27_result`, `C28_fail_fast`, `C29_each_once`, `C30_selection`, `C30_skip_name_refuted`, `C31_selected`, `C31_computed`, `C32_dependencies_first`, `C33_cached`, `C34_used_first_partial`, `C34_inherited_refuted`, `C35_exclusive`, `C36_dependencies`, `C36_declared`, `C37_once`, `C38_starts`, `C38_completes`, `C38_fair`, `C38_fair_exists`, `C39_all_recorded`, `C39_has_next`, `C39_genuine`, `C40_complete_partial`, `C40_empty_refuted`, `C40_hang_refuted`, `C40_no_report_refuted`, `C40_accept_refuted`, `C41_batches_partial`, `C41_dots_refuted`, `C42_value_partial`, `C42_none_refuted`, `C42_mutated_refuted`, `C43_lru`, `C43_bounded`, `C43_get`, `C44_this_run_partial`, `C44_earlier_run_partial`, `C44_failed_refuted`, `C45_other_value_leaks_refuted`, `C46_listing`, `C46_unset_in_test_refuted`, `C47_leak_refuted`, `C48_unset_in_test_refuted`, `C49_replay`, `C49_recorded`, `C49_independent`, `C49_order`, `C50_last_captured`, `C50_replay_partial`, `C50_repeated_refuted`, `C50_refresh`, `C50_complete`, `C51_files`, `C51_written`, `C52_retry_refuted`, `C52_refresh`, `C52_requests_partial`, `C52_httpx_partial`, `C52_binary_refuted`, `C52_httpx_binary_refuted`, `C52_header_refuted`, `C55_refuted`, `C57_second_yield`, `C58_priority_partial`, `C58_unique`, `C58_home_refuted`, `C58_zero_refuted`, `C58_error`, `C59_exact`, `C59_partial`, `C59_refuted`, `C59_sticky`, `C60_clean_partial`, `C60_garbage`, `C60_empty_part_refuted`, `C60_report`, `C61_index_partial`, `C61_newline_refuted`, `C62_boundary_refuted`, `C62_distinct_refuted`, `C62_suffix`, `C62_method`, `C62_class`, `C63_suite`, `C63_drop`, `C63_drop_unique`, `C63_drop_partial`, `C63_nameless_refuted`, `C63_absolute_refuted`, `C63_nested`, `C64_book_partial`, `C64_error`, `C64_del_refuted`, `C64_inherited`, `C64_path`, `C65_forget`, `C65_runs_again`, `C65_killed`, `C65_dependency_refuted`, `C66_keeps_records`, `C66_abort`, `C66_reviews_all`, `C66_read_only`, `C67_stable`, `C67_aligned`, `C68_abspath`, `C68_inside_partial`, `C68_outside_partial`, `C68_sibling_refuted`, `C68_root_refuted`, `C69_stable`, `C69_shape_partial`, `C69_keys_refuted`, `C69_types_refuted`, `C69_order_refuted`, `C70_choices_partial`, `C70_absolute_refuted`, `C70_star_refuted`, `C70_skip_refuted`, `C70_selects`, `C70_useful`, `C72_purge_refuted`, `C72_purge_partial`, `C73_exit_code_partial`, `C73_interrupt_refuted`, `C75_tokens`, `C75_label`, `C76_was`, `C77_listing_partial`, `C77_same_partial`, `C77_listing_refuted`, `C78_listing`, `C79_setup`, `C79_lost`, `C79_confirmed_refuted`, `C80_list`, `C81_accept_rerun_partial`, `C81_resources_partial`, `C81_index_refuted`, `C82_plain_run`, `C83_isolation_partial`, `C83_nested_refuted`, `C84_log_file`, `C84_handlers`, `C84_stderr_refuted`, `C84_interrupt_refuted`, `C85_report`, `C85_summary`, `C85_review`, `C85_review_report`, `C85_lost_worker_refuted`, `C86_replay_partial`, `C86_log_name_refuted`, `C86_return_refuted`, `C87_detected`, `C87_fails`, `C87_order`, `C88_distinct_partial`, `C88_suffix_refuted`, `C88_import_refuted`, `C89_setup`, `C89_order_refuted`, `C90_same_results`, `C90_same_reports`, `C91_step`, `C91_resource_refuted`, `C92_options`, `C92_settings_partial`, `C92_one_refuted`, `C93_files`, `C93_text_partial`, `C93_console`, `C93_empty_refuted`, `C93_collision_refuted`, `C94_arguments_partial`, `C94_layers`, `C94_dependency_partial`, `C94_stacked_refuted`, `C95_resources_partial`, `C95_stacked_refuted`, `C95_ports`, `C95_port_text_refuted`, `C96_directories_partial`, `C96_project_partial`, `C96_blank_refuted`, `C96_others_refuted`, `C96_plain_names`, `C97_rm_refuses`, `C97_guard`, `C97_batches_partial`, `C97_blank_refuted`, `C98_print_partial`, `C98_blank_refuted`, `C99_status`, `C99_parallel_partial`, `C100_terminates`, `C100_call`, `C100_repeatable`, `C101_skips_only_ok`, `C101_one_record`, `C102_never_asks`, `C102_collected`, `C102_named`, `C102_records`, `C103_alone_partial`, `C103_results`, `C103_sequential`, `C103_length`, `C103_elsewhere`, `C103_nested_refuted`, `C104_sequential`, `C104_parallel`, `C104_snapshots_partial`, `C104_not_failed`, `C104_nothing_accepted`, `C104_is_run`, `C104_nested_refuted`, `C105_record_partial`, `C105_snapshots_partial`, `C105_review_partial`, `C105_reviewed_partial`, `C106_sound`, `C106_complete`, `C106_unique`, `C106_settings`, `C106_pieces_refuted`, `C106_zero_refuted`, `C107_rejected`, `C107_looking`, `C107_starts`, `C107_names`, `C107_paths`, `C107_prints`, `C107_config`, `C107_clean`, `C107_garbage_lists`, `C107_garbage`, `C107_forgets`, `C107_frame`, `C107_run_partial`, `C107_list`, `C107_forget`, `C107_coverage_files`, `C107_covered`, `C107_view`, `C107_unasked_partial`, `C107_accept_rerun_partial`, `C109_replay_partial`, `C109_refuted`, `C109_order_refuted`, `C110_told_apart_partial`, `C110_replay_partial`, `C110_module_refuted`, `C110_modules_refuted`, `C110_tuple_refuted`, `C110_key_refuted`, `C110_order_refuted`, `C111_digest`, `C111_hashes`, `C111_same`, `C112_calls`, `C112_fails_iff`, `C112_be_a`, `C112_contain_equal`, `C113_line`, `C113_alt`, `C113_kept`, `C113_compared`, `C114_directories_partial`, `C114_fresh_partial`, `C114_started`, `C114_blank_refuted`, `C115_functions`, `C115_requests`, `C116_encoding`, `C116_same`, `C117_snapshots`, `C117_record`, `C117_change`, `C117_workers`, `C117_killed`, `C117_unasked`, `C117_clean_refuted`, `C118_exclusive`, `C118_dependencies`, `C118_refines`, `C118_others`, `C118_snapshots`, `C118_records`, `C118_early_refuted`, `C119_read_back`, `C119_same`, `C119_distinct`, `C119_every_value_refuted`, `C120_part_not_read`, `C120_numbers_refuted`, `C121_file`, `C121_rewritten`, `C121_replay`, `C121_written`, `C121_same_type_refuted`, `C122_env`, `C122_requests`, `C122_httpx`, `C122_base64`, `C122_metrics`, `C122_requests_run`, `C122_httpx_run`, `C122_env_run`, `C123_same_files_partial`, `C123_complete`, `C123_update_refuted`, `C123_fail_fast_refuted`, `C124_ends`, `C124_exists`, `C125_same`, `C125_begins`, `C125_order`, `C125_option`, `C126_ends`, `C126_accept`, `C126_again`, `C126_forever`, `C127_same_values_partial`, `C127_ends_partial`, `C127_none_refuted`, `C128_stored_values_partial`, `C128_any_cache_partial`, `C128_new_values_partial`, `C128_none_refuted`, `C129_same_files_partial`, `C129_complete`, `C129_ends`, `C129_exists`, `C130_values_partial`, `C130_same_partial`, `C130_option_partial`, `C130_none_refuted`, `C131_again`, `C131_forever`, `C131_ends`, `C131_accept`, `C131_accept_ends`, `C132_private`, `C132_again`, `C132_run`, `C132_accepted`, `C133_dialogue`, `C133_no_answer`, `C133_accepted_partial`, `C133_consent`, `C133_quit_refuted`, `C134_review_later`, `C135_dialogue`, `C135_in_order`, `C135_order_refuted`, `C136_needed`, `C136_run`, `C136_kept`, `C136_before`, `C136_clean`, `C136_reviews`, `C136_recorded_refuted`, `C137_commands`, `C138_no_answer`, `C138_review`, `C138_workers`, `C139_review_partial`, `C139_workers_partial`, `C139_forever_partial`, `C139_accept_all`, `C140_again_partial`, `C140_no_answer_partial`, `C140_sittings_partial`, `C140_run_partial`, `C141_reviews_partial`, `C141_workers_partial`, `C141_run_partial`, `C141_interrupted_refuted`.

## 9. Seeded faults

`seeded/LOG.jsonl` has one line for each fault that was put into a scratch copy of the model: the
definition, the edit, the claim that it breaks, the theorems (or the lemmas they rest on) that failed,
the modules that could not be built because of it (`blocked`), and the theorems that were tightened
because they survived.
