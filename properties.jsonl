{"id": "C01", "title": "Tokenizing loses nothing", "statement": "Iterating TestTokenizer(s) yields only non-empty pieces whose concatenation is exactly s, for every string s without a NUL character.", "quantifier": "every NUL-free string s and every Unicode classification of letters and digits", "why_tests_cant": "the set of strings and the mixtures of signs, digits, dots, letters and blanks is unbounded", "anchors": ["booktest/tokenizer.py:TestTokenizer.__next__"]}
{"id": "C02", "title": "Tokenizing always finishes", "statement": "Iterating TestTokenizer(s) reaches StopIteration after finitely many steps for every string s (so t.t / t.tln / t.i never hang).", "quantifier": "every string s", "why_tests_cant": "non-termination cannot be observed by a finite test, and the offending inputs are rare", "anchors": ["booktest/tokenizer.py:TestTokenizer.__next__", "booktest/testcaserun.py:TestCaseRun.feed"]}
{"id": "C03", "title": "Newlines delimit tokens", "statement": "A newline is always a token of its own, and the tokens of a multi-line text are the tokens of its lines with newline tokens in between.", "quantifier": "every NUL-free multi-line string", "why_tests_cant": "unbounded inputs; a token that swallowed a newline would break line accounting for one odd mixture only", "anchors": ["booktest/tokenizer.py:TestTokenizer.__next__"]}
{"id": "C04", "title": "The output file is exactly what the test printed", "statement": "The <case>.md output written by a test equals the concatenation of the texts passed to the printing calls (plus the blank line a header puts before itself), up to the last newline, and does not depend on the content or existence of the snapshot.", "quantifier": "every sequence of printing, header, anchor, set, table, assertion calls and every snapshot file", "why_tests_cant": "all call sequences times all snapshot contents", "anchors": ["booktest/testcaserun.py:TestCaseRun.feed_token", "booktest/testcaserun.py:TestCaseRun.write_line", "booktest/testcaserun.py:TestCaseRun.header", "booktest/testcaserun.py:TestCaseRun.tset"]}
{"id": "C05", "title": "Ignored text never influences the verdict", "statement": "i(), iln(), ifloatln() and a fulfilled assertln() never mark a difference or an error, whatever the snapshot contains.", "quantifier": "every text, every snapshot and every state in which the calls are made", "why_tests_cant": "all texts times all snapshots", "anchors": ["booktest/testcaserun.py:TestCaseRun.i", "booktest/testcaserun.py:TestCaseRun.iln", "booktest/testcaserun.py:TestCaseRun.feed", "booktest/testcaserun.py:TestCaseRun.ifloatln", "booktest/testcaserun.py:TestCaseRun.assertln"]}
{"id": "C06", "title": "Checked lines are compared exactly, line by line", "statement": "For a test that prints lines with tln(), the k-th line is marked as a difference if and only if it is not identical to the k-th line of the snapshot (or the snapshot has no k-th line); the number of marked lines is reported as the difference count.", "quantifier": "every list of printed lines and every snapshot file", "why_tests_cant": "the comparison is token based, so equality of lines is a claim about all pairs of strings", "anchors": ["booktest/testcaserun.py:TestCaseRun.tln", "booktest/testcaserun.py:TestCaseRun.feed_token", "booktest/testcaserun.py:TestCaseRun.commit_line", "booktest/testcaserun.py:TestCaseRun.next_exp_line"]}
{"id": "C07", "title": "A passing test reproduces its whole snapshot", "statement": "If a test that only prints checked text ends with OK, its output is identical to the complete snapshot.", "quantifier": "every list of printed lines and every snapshot file", "why_tests_cant": "needs every snapshot, including those longer than the output", "anchors": ["booktest/testcaserun.py:TestCaseRun.end", "booktest/testcaserun.py:TestCaseRun.commit_line"]}
{"id": "C08", "title": "Accept, rerun, pass", "statement": "If the output of a run is accepted as the snapshot and the same deterministic test is run again, the result is OK and the output is identical.", "quantifier": "every deterministic test, i.e. every sequence of calls of the printing API", "why_tests_cant": "quantifies over all tests and the complete interaction of cursor, seek and tokenizer", "anchors": ["booktest/testcaserun.py:TestCaseRun", "booktest/review.py:freeze_case"]}
{"id": "C09", "title": "A test that calls fail() fails", "statement": "If a test calls fail(), or an assertln() with a false condition, its result is FAIL.", "quantifier": "every call sequence before and after the failure, every snapshot", "why_tests_cant": "the failing call can be at any position of any call sequence", "anchors": ["booktest/testcaserun.py:TestCaseRun.fail", "booktest/testcaserun.py:TestCaseRun.assertln", "booktest/testcaserun.py:TestCaseRun.commit_line", "booktest/testcaserun.py:TestCaseRun.end"]}
{"id": "C10", "title": "A test that raises fails", "statement": "A test that raises an Exception ends as FAIL, whatever it printed before, whatever the snapshot is, and its partial output line is not lost.", "quantifier": "every call sequence before the exception, every message, every snapshot", "why_tests_cant": "the exception can strike at any point", "anchors": ["booktest/testrun.py:TestRun.run_case", "booktest/testcaserun.py:TestCaseRun.end"]}
{"id": "C11", "title": "No failure without a cause", "statement": "A test that never calls fail(), never has a false assertion, never exceeds a time limit and does not raise is never FAIL: at worst it is DIFF.", "quantifier": "every such call sequence and every snapshot", "why_tests_cant": "all call sequences times all snapshots", "anchors": ["booktest/testcaserun.py:TestCaseRun.end", "booktest/testcaserun.py:TestCaseRun.fail"]}
{"id": "C12", "title": "A test without a snapshot never passes by itself", "statement": "When no snapshot file exists, no sequence of calls makes the test OK, and nothing is marked as a difference line.", "quantifier": "every call sequence", "why_tests_cant": "all tests", "anchors": ["booktest/testcaserun.py:TestCaseRun.end", "booktest/testcaserun.py:TestCaseRun.feed_token"]}
{"id": "C13", "title": "Anchors find the right place", "statement": "anchor()/anchorln() move the snapshot cursor to the first matching line at or after the cursor, else to the first matching line from the top, and leave the cursor on its line when no line matches.", "quantifier": "every snapshot, cursor position and anchor", "why_tests_cant": "all snapshots times all positions", "anchors": ["booktest/testcaserun.py:TestCaseRun.seek", "booktest/testcaserun.py:TestCaseRun.jump", "booktest/testcaserun.py:TestCaseRun.reset_exp_reader"]}
{"id": "C14", "title": "Sections may come in any order", "statement": "A test printing distinct header sections (h1/h2/h3/header followed by tln lines) produces no difference when it prints the sections of the snapshot in any other order, provided the headers are not blank and do not occur as lines inside the sections.", "quantifier": "every list of sections with distinct headers and every permutation of it", "why_tests_cant": "factorially many orders of unboundedly many sections", "anchors": ["booktest/testcaserun.py:TestCaseRun.header", "booktest/testcaserun.py:TestCaseRun.anchorln", "booktest/testcaserun.py:TestCaseRun.seek"]}
{"id": "C15", "title": "tset compares sets", "statement": "tset(items) marks no difference exactly when the items are, as a duplicate-free list in any order, the set of items listed at the snapshot cursor, and afterwards comparison continues right after that list.", "quantifier": "every item list, prefix and snapshot", "why_tests_cant": "all permutations and all snapshots", "anchors": ["booktest/testcaserun.py:TestCaseRun.tset"]}
{"id": "C16", "title": "Every printed line is reported once", "statement": "Each committed line yields exactly one line in the case report, marked '!' iff an error was marked on the line, '?' iff only a difference was, and unmarked otherwise; errors and diffs count exactly the marked lines.", "quantifier": "every call sequence and snapshot", "why_tests_cant": "all call sequences", "anchors": ["booktest/testcaserun.py:TestCaseRun.commit_line", "booktest/testcaserun.py:TestCaseRun.report"]}
{"id": "C17", "title": "A failed test is never accepted", "statement": "No configuration (-a, -u, -i, -I in any combination) and no sequence of user answers turns a FAIL into an accepted snapshot: the result stays FAIL and no file changes.", "quantifier": "every configuration, every answer sequence, every file system state", "why_tests_cant": "all configurations and all interactive histories", "anchors": ["booktest/review.py:case_review", "booktest/review.py:interact"]}
{"id": "C18", "title": "Snapshots change only on acceptance", "statement": "Reviewing a case leaves every file untouched unless the user answered 'a', or the result was DIFF with -a, or OK with -u; exactly in those cases the result becomes OK and the snapshot is replaced.", "quantifier": "every configuration, answer sequence and result", "why_tests_cant": "all interactive histories", "anchors": ["booktest/review.py:case_review", "booktest/review.py:interact", "booktest/review.py:freeze_case"]}
{"id": "C19", "title": "Acceptance installs exactly the new output", "statement": "After accepting, the snapshot .md is the run's output, the snapshot resource directory is exactly the run's resource directory (or gone if the run made none), the run's copies are moved away, and no other file changes.", "quantifier": "every file system state and every case", "why_tests_cant": "all directory contents", "anchors": ["booktest/review.py:freeze_case"]}
{"id": "C20", "title": "Accepting one test leaves the others alone", "statement": "Accepting test A never changes the snapshot files of a different test B.", "quantifier": "every pair of distinct test names and every file system state", "why_tests_cant": "all pairs of names, including nested ones", "anchors": ["booktest/review.py:freeze_case", "booktest/testcaserun.py:TestCaseRun.__init__"]}
{"id": "C21", "title": "A crash while accepting does not corrupt the snapshot", "statement": "If the process dies at any point of accepting, the snapshot .md is either the complete old one or the complete new one, and no resource file of either version has been lost.", "quantifier": "every crash point and every file system state", "why_tests_cant": "crash points cannot be enumerated from outside the process", "anchors": ["booktest/review.py:freeze_case"]}
{"id": "C22", "title": "Accepting is safe to repeat", "statement": "Reviewing an already accepted case again with acceptance (booktest -p -u, booktest -u followed by booktest -w -u, -p -a -I) keeps the accepted snapshot and does not abort the run.", "quantifier": "every case and file system state, every configuration", "why_tests_cant": "needs combinations of flags, processes and file system states", "anchors": ["booktest/review.py:freeze_case", "booktest/runs.py:ParallelRunner.__init__", "booktest/runs.py:parallel_run_tests"]}
{"id": "C23", "title": "The case report file round-trips", "statement": "Reading back a cases.txt written from a list of results returns the same names, results and durations in the same order.", "quantifier": "every list of results whose names are free of tab, newline and carriage return", "why_tests_cant": "all lists of names", "anchors": ["booktest/reports.py:CaseReports.to_file", "booktest/reports.py:CaseReports.of_file", "booktest/reports.py:read_lines"]}
{"id": "C24", "title": "A torn case report never invents a result", "statement": "If writing cases.txt is cut at any byte, reading the remains gives the (name, result) pairs of an initial segment of what was being written.", "quantifier": "every list of results and every cut position", "why_tests_cant": "every byte position is a crash point", "anchors": ["booktest/reports.py:CaseReports.write_case", "booktest/reports.py:CaseReports.of_file"]}
{"id": "C25", "title": "Continue skips exactly the passed tests", "statement": "With -c a selected test is skipped if and only if its first record in cases.txt is OK; the order of the remaining tests is kept; without -c every selected test is run.", "quantifier": "every case report, selection and configuration", "why_tests_cant": "all report contents", "anchors": ["booktest/reports.py:CaseReports.cases_to_done_and_todo"]}
{"id": "C26", "title": "Interrupted runs can be continued", "statement": "If a run is killed at any point (even in the middle of a write to cases.txt), a later run with -c never skips a selected test unless that test has a recorded OK from its latest completed execution, and the tests not to be rerun keep their old records once the run has begun testing.", "quantifier": "every crash point, every case list, every old report", "why_tests_cant": "all crash points and histories", "anchors": ["booktest/testrun.py:TestRun.run_async", "booktest/reports.py:CaseReports"]}
{"id": "C27", "title": "The exit code tells the truth about the executed tests", "statement": "A sequential run returns 0 if and only if every executed test ended OK, and FAIL takes precedence over DIFF in the aggregated result.", "quantifier": "every list of test outcomes", "why_tests_cant": "all outcome lists", "anchors": ["booktest/testrun.py:TestRun.run_async", "booktest/reports.py:test_result_to_exit_code", "booktest/runs.py:run_tests"]}
{"id": "C28", "title": "Fail fast stops at the first failure", "statement": "With -f nothing is executed after the first test that is not OK, and everything before it is executed and recorded.", "quantifier": "every list of tests and outcomes", "why_tests_cant": "all outcome lists", "anchors": ["booktest/testrun.py:TestRun.run_async"]}
{"id": "C29", "title": "Every selected test is executed once, in order", "statement": "A sequential run without abort executes each test to be run exactly once in selection order and records exactly one result for it in cases.txt, after the kept old records.", "quantifier": "every selection, report and outcome list", "why_tests_cant": "all selections", "anchors": ["booktest/testrun.py:TestRun.run_async"]}
{"id": "C30", "title": "Selection matches whole path components", "statement": "A test is selected iff no skip: argument matches it and either all arguments are skips or some argument is '*' or matches it, where an argument matches iff its path components are an initial segment of the test's components.", "quantifier": "every test name and every argument list", "why_tests_cant": "all strings; boundary cases at '/'", "anchors": ["booktest/tests.py:Tests.is_selected"]}
{"id": "C31", "title": "Selected tests and their dependencies, each once", "statement": "The list of tests to run contains every selected test, no test twice, and apart from the selected tests only tests they transitively depend on.", "quantifier": "every suite, dependency graph, selection and cache state", "why_tests_cant": "all graphs", "anchors": ["booktest/tests.py:Tests.selected_names", "booktest/tests.py:Tests.all_method_dependencies"]}
{"id": "C32", "title": "Dependencies come first", "statement": "In the list of tests to run, each test is preceded by all the tests its declared dependencies resolve to (except cached ones that were not selected).", "quantifier": "every suite with acyclic dependencies, every selection", "why_tests_cant": "all graphs, including diamonds and shared dependencies", "anchors": ["booktest/tests.py:Tests.selected_names", "booktest/tests.py:Tests.method_dependencies"]}
{"id": "C33", "title": "Cached dependencies are reused unless refreshed", "statement": "A dependency that is not itself selected is executed iff its stored result is missing or -r is given.", "quantifier": "every suite, selection and cache directory content", "why_tests_cant": "all cache states", "anchors": ["booktest/tests.py:Tests.method_dependencies", "booktest/tests.py:Tests.test_result_exists"]}
{"id": "C34", "title": "The scheduled dependency is the one that is used", "statement": "The test whose result is passed to a dependent test is a test the scheduler has ordered before it.", "quantifier": "every suite, class hierarchy, instance and dependency declaration", "why_tests_cant": "all class hierarchies and instances", "anchors": ["booktest/tests.py:Tests.method_dependencies", "booktest/dependencies.py:bind_dependent_method_if_unbound", "booktest/dependencies.py:call_class_method_test", "booktest/dependencies.py:call_function_test", "booktest/testrun.py:match_method"]}
{"id": "C35", "title": "Exclusive resources are never shared", "statement": "In a parallel run two tests that declare a common Resource are never running at the same time.", "quantifier": "every suite, worker timing and scheduling order", "why_tests_cant": "all interleavings", "anchors": ["booktest/runs.py:ParallelRunner.plan", "booktest/runs.py:ParallelRunner.thread_function", "booktest/dependencies.py:Resource"]}
{"id": "C36", "title": "Parallel runs respect dependencies", "statement": "In a parallel run a test is started only after every test to be run that it depends on has finished.", "quantifier": "every suite, worker timing and scheduling order", "why_tests_cant": "all interleavings", "anchors": ["booktest/runs.py:ParallelRunner.plan", "booktest/runs.py:ParallelRunner.thread_function"]}
{"id": "C37", "title": "Parallel runs start each test at most once", "statement": "In a parallel run no test is started twice, and only tests to be run are started.", "quantifier": "every schedule", "why_tests_cant": "all interleavings", "anchors": ["booktest/runs.py:ParallelRunner.thread_function"]}
{"id": "C38", "title": "Parallel runs do not get stuck", "statement": "If the dependencies are acyclic, then whenever tests remain and none is running, the scheduler starts at least one; hence every run in which started tests finish completes.", "quantifier": "every acyclic suite, resource assignment and schedule", "why_tests_cant": "deadlocks are schedule dependent", "anchors": ["booktest/runs.py:ParallelRunner.plan", "booktest/runs.py:ParallelRunner.thread_function"]}
{"id": "C39", "title": "Every parallel result is reported exactly once", "statement": "In a parallel run without abort the result of every test to be run is delivered to the reviewer exactly once and recorded in cases.txt, and has_next() becomes false exactly when all were delivered.", "quantifier": "every schedule of workers, scheduler thread and reviewer", "why_tests_cant": "all interleavings of two threads and the workers", "anchors": ["booktest/runs.py:ParallelRunner.thread_function", "booktest/runs.py:ParallelRunner.has_next", "booktest/runs.py:ParallelRunner.next_report", "booktest/runs.py:parallel_run_tests"]}
{"id": "C40", "title": "A dying worker is reported as a failure", "statement": "If a worker process terminates its test abnormally, the parallel run still finishes, records the test as FAIL and does not offer to accept it.", "quantifier": "every worker outcome: no report file, empty report file, one record", "why_tests_cant": "rare crash outcomes", "anchors": ["booktest/runs.py:RunBatch.__call__", "booktest/runs.py:ParallelRunner.thread_function", "booktest/reports.py:CaseReports.make_case"]}
{"id": "C41", "title": "Parallel batches do not collide", "statement": "Distinct tests use distinct batch directories in a parallel run.", "quantifier": "every pair of distinct test names", "why_tests_cant": "all pairs of names", "anchors": ["booktest/runs.py:case_batch_dir_and_report_file", "booktest/runs.py:RunBatch.__call__"]}
{"id": "C42", "title": "A dependent test gets the value its dependency returned", "statement": "The value handed to a dependent test equals the value returned by the latest non-failed execution of the dependency, whatever was cached, evicted or stored in between.", "quantifier": "every history of saves and loads, every cache size", "why_tests_cant": "all histories and eviction orders", "anchors": ["booktest/testrun.py:TestRun.get_test_result", "booktest/testrun.py:TestRun.save_test_result", "booktest/cache.py:LruCache"]}
{"id": "C43", "title": "The memory cache is bounded and keeps the most recent entries", "statement": "An LruCache(n) never holds more than n entries, and holds exactly the n most recently used keys, each with its last stored value.", "quantifier": "every sequence of gets and sets", "why_tests_cant": "all operation sequences", "anchors": ["booktest/cache.py:LruCache"]}
{"id": "C44", "title": "Dependency values do not depend on the worker process", "statement": "In a parallel run the value a dependent test receives is the value its dependency returned in this run, whichever worker processes executed the two.", "quantifier": "every assignment of tests to workers and every cache history", "why_tests_cant": "all schedules", "anchors": ["booktest/runs.py:PROCESS_LOCAL_CACHE", "booktest/testrun.py:TestRun.get_test_result"]}
{"id": "C45", "title": "mock_env restores the environment", "statement": "After a mock_env test, every mocked variable has its original value (or is unset as before), whatever the test did to it and even if it raised; inside the test every mocked variable has the mocked value.", "quantifier": "every environment, mock dictionary and test behaviour", "why_tests_cant": "all environments and behaviours", "anchors": ["booktest/env.py:MockEnv"]}
{"id": "C46", "title": "snapshot_env replays the captured variables", "statement": "In replay mode the test sees exactly the captured values of the named variables, independent of the actual environment, and afterwards the environment is restored.", "quantifier": "every environment, snapshot and variable list", "why_tests_cant": "all environments", "anchors": ["booktest/env.py:SnapshotEnv"]}
{"id": "C47", "title": "A missing env snapshot does not leak", "statement": "If snapshot_env cannot start because a snapshot is missing, the environment is left as it was.", "quantifier": "every environment, snapshot and variable list", "why_tests_cant": "needs partially complete snapshots", "anchors": ["booktest/env.py:SnapshotEnv.start"]}
{"id": "C48", "title": "mock_missing_env only fills gaps", "statement": "mock_missing_env sets only variables that are unset, leaves the others alone, and restores all of them afterwards; while snapshots are being captured it does not mock at all.", "quantifier": "every environment, dictionary and mode", "why_tests_cant": "all environments", "anchors": ["booktest/env.py:MockMissingEnv"]}
{"id": "C49", "title": "Function snapshots replay without calling the function", "statement": "Outside capture mode a snapshotted function is never really called: a recorded call returns the recorded result, any other call raises.", "quantifier": "every set of recorded snapshots and every call sequence", "why_tests_cant": "all call sequences", "anchors": ["booktest/functions.py:SnapshotFunctions.snapshot"]}
{"id": "C50", "title": "Captured function calls replay identically", "statement": "After capturing with -S or -s and accepting, rerunning the same call sequence in replay mode succeeds and every call returns the value it returned during the capture.", "quantifier": "every call sequence and function behaviour", "why_tests_cant": "all call sequences and non-deterministic functions", "anchors": ["booktest/functions.py:SnapshotFunctions"]}
{"id": "C51", "title": "Function snapshots keep exactly the calls that were made", "statement": "The stored snapshot set after a run contains exactly one entry per distinct call made in that run, so unused old snapshots disappear on acceptance.", "quantifier": "every call sequence and old snapshot set", "why_tests_cant": "all call sequences", "anchors": ["booktest/functions.py:SnapshotFunctions.snapshot", "booktest/functions.py:SnapshotFunctions.stop"]}
{"id": "C52", "title": "Captured request sequences replay identically", "statement": "After capturing a sequence of HTTP requests, replaying the same sequence returns the same responses in the same order, even when the same request was answered differently each time, without contacting the server.", "quantifier": "every request sequence and server behaviour", "why_tests_cant": "all sequences and stateful servers", "anchors": ["booktest/requests.py:SnapshotAdapter", "booktest/httpx.py:SnapshotHttpx"]}
{"id": "C53", "title": "No secrets in stored requests by default", "statement": "With default settings the stored request snapshots contain neither headers nor bodies, and matching does not depend on the headers.", "quantifier": "every request and header set", "why_tests_cant": "all header sets", "anchors": ["booktest/requests.py:RequestKey", "booktest/httpx.py:RequestKey"]}
{"id": "C54", "title": "Ignored headers are really ignored", "statement": "With a list of ignored headers, two requests differing only in those headers (in any letter case) get the same key, and the ignored headers are not stored.", "quantifier": "every request, header list", "why_tests_cant": "all header sets and cases", "anchors": ["booktest/requests.py:RequestKey.__init__"]}
{"id": "C55", "title": "Custom hashing also covers repeated requests", "statement": "With a custom json_to_hash, repeated requests that the custom hash identifies are replayed in order like any other request sequence.", "quantifier": "every hash function and request sequence", "why_tests_cant": "all hash functions", "anchors": ["booktest/requests.py:RequestKey.increase_order"]}
{"id": "C56", "title": "Patched functions are put back", "statement": "After snapshot_functions / mock_functions blocks end, in any nesting, every patched function is what it was before the block.", "quantifier": "every nesting of blocks and function lists", "why_tests_cant": "all nestings", "anchors": ["booktest/functions.py:SnapshotFunctions.stop", "booktest/functions.py:MockFunctions", "booktest/functions.py:set_function"]}
{"id": "C57", "title": "Teardown always runs", "statement": "With setup_teardown (and process_setup_teardown) the part before yield runs exactly once before the test and the part after yield exactly once after it, also when the test raises.", "quantifier": "every generator and test outcome", "why_tests_cant": "all outcomes", "anchors": ["booktest/utils.py:SetupTeardown", "booktest/runs.py:run_tests"]}
{"id": "C58", "title": "Configuration priority", "statement": "A setting is taken from the command line flag if given, else from the BOOKTEST_ environment variable, else from the project's .booktest file, else from ~/.booktest in the home directory.", "quantifier": "every combination of sources", "why_tests_cant": "all combinations", "anchors": ["booktest/config.py:resolve_default_config", "booktest/tests.py:Tests.exec_parsed"]}
{"id": "C59", "title": "Runs do not inherit flags from earlier runs", "statement": "Calling Tests.exec twice in one process, the flags of the first call do not influence the second.", "quantifier": "every pair of argument lists", "why_tests_cant": "histories", "anchors": ["booktest/config.py:get_default_config", "booktest/tests.py:Tests.exec_parsed"]}
{"id": "C60", "title": "Cleaning never removes live snapshots", "statement": "booktest --clean deletes no snapshot .md and no resource file of an existing test, nor index.md; and deletes every file under the books directory that belongs to no existing test.", "quantifier": "every set of tests and directory content", "why_tests_cant": "all directory contents", "anchors": ["booktest/tests.py:Tests.exec_parsed"]}
{"id": "C61", "title": "The index links every test once", "statement": "index.md contains exactly one link per test, in suite order, nested under its path components.", "quantifier": "every list of test names", "why_tests_cant": "all name lists", "anchors": ["booktest/review.py:create_index"]}
{"id": "C62", "title": "Test names are derived predictably", "statement": "A test method test_x becomes x; class names become snake case: removing underscores and lower-casing gives the same letters, an underscore is inserted exactly at lower-to-upper boundaries, and one test/book suffix is removed.", "quantifier": "every identifier", "why_tests_cant": "all identifiers", "anchors": ["booktest/naming.py"]}
{"id": "C63", "title": "Suites compose", "statement": "merge_tests keeps all cases of arbitrarily nested lists of suites in order; dropping the prefix that a suite added gives back the original cases.", "quantifier": "every nesting of suites", "why_tests_cant": "all nestings", "anchors": ["booktest/testsuite.py"]}
{"id": "C64", "title": "Test books list their tests in definition order", "statement": "A TestBook lists each test_ method defined in its class body exactly once, in order of first definition.", "quantifier": "every class body", "why_tests_cant": "all class bodies", "anchors": ["booktest/testbook.py:member_table", "booktest/testbook.py:TestBook.__init__"]}
{"id": "C65", "title": "Forgetting a test makes it run again", "statement": "After --forget the forgotten tests have no record and are run again with -c, while all other records are kept.", "quantifier": "every report and selection", "why_tests_cant": "all reports", "anchors": ["booktest/tests.py:Tests.exec_parsed"]}
{"id": "C66", "title": "Reviewing keeps the records", "statement": "booktest --review keeps the names, order and durations of all records; a result changes only to OK by acceptance; the exit code is 0 iff all records are OK afterwards; after abort nothing more is reviewed.", "quantifier": "every report, configuration and answer sequence", "why_tests_cant": "all histories", "anchors": ["booktest/review.py:review"]}
{"id": "C67", "title": "Tables are aligned and stable", "statement": "All lines of a table printed with tdf/ttable have the same length, every cell is padded to its column's width, and an accepted table passes when printed again.", "quantifier": "every table of strings", "why_tests_cant": "all cell contents", "anchors": ["booktest/testcaserun.py:TestCaseRun.tdf"]}
{"id": "C68", "title": "Image paths are relative to the book", "statement": "rel_path(f) is the path of f relative to the test's output directory if f is inside it, and None otherwise.", "quantifier": "every file path and output directory", "why_tests_cant": "all paths", "anchors": ["booktest/testcaserun.py:TestCaseRun.rel_path"]}
{"id": "C69", "title": "tformat shows the shape and nothing else", "statement": "Two values have the same value_format iff they have the same list/dict structure, keys and leaf types.", "quantifier": "every JSON-like value", "why_tests_cant": "all values", "anchors": ["booktest/testcaserun.py:value_format"]}
{"id": "C70", "title": "Every test can be selected on the command line", "statement": "The accepted test_cases arguments are exactly '*', every path prefix of every test name, and skip: followed by one.", "quantifier": "every list of test names", "why_tests_cant": "all name lists", "anchors": ["booktest/tests.py:Tests.setup_parser"]}
{"id": "C71", "title": "A number is one token", "statement": "A number with an optional sign and an optional fraction is a single token (so ifloatln sees the complete old value), unless it is directly followed by another digit or fraction.", "quantifier": "every number and every following text", "why_tests_cant": "all digit strings and contexts", "anchors": ["booktest/tokenizer.py:TestTokenizer.__next__"]}
{"id": "C72", "title": "Starting one test leaves the outputs of other tests alone", "statement": "When a test starts, the output directory and temporary directory of that test are emptied, and no output of any other test is deleted.", "quantifier": "for all file systems, output directories and test names", "why_tests_cant": "The tests run single suites whose test names are not prefixes of each other; whether a purge touches other tests is a statement about all pairs of names and all directory contents.", "anchors": ["booktest/testcaserun.py:TestCaseRun.__init__"]}
{"id": "C73", "title": "The exit code of a parallel run reflects its results", "statement": "A parallel run returns 0 exactly if every test to be run was recorded as OK.", "quantifier": "every suite, worker outcome, review and schedule, with and without abort", "why_tests_cant": "The tests check the exit code of a few runs that complete; interrupted runs and arbitrary interleavings of records cannot be enumerated.", "anchors": ["booktest/runs.py:parallel_run_tests", "booktest/runs.py:ParallelRunner"]}
{"id": "C74", "title": "Tokens are maximal runs", "statement": "The next token of a text is a maximal run of blanks, a maximal signed decimal number, a maximal word that does not begin with a digit, or a single other character; each text has exactly one first token.", "quantifier": "for all NUL-free texts and all Unicode classifications", "why_tests_cant": "the token classes interact (sign before digit, dot before digit, digit inside a word); a test covers only a few combinations", "anchors": [{"file": "booktest/tokenizer.py", "symbol": "TestTokenizer.__next__"}]}
{"id": "C75", "title": "Mixed lines are compared token by token", "statement": "In a test that prints checked and unchecked texts (t, i, tln, iln, tlist, tables, fulfilled assertions) in any mixture, a line is marked as a difference iff one of its checked tokens is not the token at the same position of the snapshot line with the same number, and the caret points to the first such token; a checked label followed by an unchecked value passes iff the label's tokens begin the snapshot line.", "quantifier": "for all sequences of such calls, all NUL-free texts and snapshots", "why_tests_cant": "the interplay of token positions, line numbers and the check flag has unboundedly many combinations", "anchors": [{"file": "booktest/testcaserun.py", "symbol": "TestCaseRun.feed_token"}, {"file": "booktest/testcaserun.py", "symbol": "TestCaseRun.tdf"}]}
{"id": "C76", "title": "ifloatln quotes the old value", "statement": "ifloatln prints the value and, iff the first token of the snapshot line with the same number is a number, that old value in parentheses.", "quantifier": "for all values, snapshots and preceding lines", "why_tests_cant": "depends on the snapshot content at the cursor", "anchors": [{"file": "booktest/testcaserun.py", "symbol": "TestCaseRun.ifloatln"}, {"file": "booktest/testcaserun.py", "symbol": "TestCaseRun.head_exp_token"}]}
{"id": "C77", "title": "The listing of function snapshots is stable", "statement": "The list of function snapshots printed by a block is the same in the capturing run and in a later replay of the same calls.", "quantifier": "every test and every behaviour of the functions", "why_tests_cant": "depends on which calls are repeated and on the order of the files", "anchors": ["booktest/functions.py:SnapshotFunctions.t_snapshots", "booktest/functions.py:SnapshotFunctions.snapshot"]}
{"id": "C78", "title": "The listing of request snapshots is stable", "statement": "The list of request snapshots printed by a block is the same in the capturing run and in a later replay of the same requests.", "quantifier": "every request sequence and server behaviour", "why_tests_cant": "all sequences and stateful servers", "anchors": ["booktest/requests.py:SnapshotRequests.t_snapshots", "booktest/httpx.py:SnapshotHttpx.t_snapshots"]}
{"id": "C79", "title": "Setup writes what is read", "statement": "After --setup a new process reads, for each setting asked, the answer given, or the offered value for an empty answer; no other setting of the file remains.", "quantifier": "every configuration before and every list of answers", "why_tests_cant": "all answers and all previous configurations", "anchors": ["booktest/setup.py:setup_booktest", "booktest/setup.py:prompt_config", "booktest/config.py:parse_config_file"]}
{"id": "C80", "title": "Listing shows what a run would do", "statement": "booktest -l lists exactly the tests, in order, that the same command line without -l executes, if the run is not stopped by the user, by fail fast or by an exception.", "quantifier": "every selection, report and configuration", "why_tests_cant": "depends on the report and the selection", "anchors": ["booktest/tests.py:Tests.exec_parsed", "booktest/testrun.py:TestRun.run_async"]}
{"id": "C81", "title": "Accept everything, run again, everything passes", "statement": "After a run with -a that is not interactive, a second run of the same tests exits with 0, and so did the first one; the second run leaves the snapshots as they are; the snapshot directory of an accepted test holds exactly the files the test wrote.", "quantifier": "every project, every set of tests, every state of the files, every old report", "why_tests_cant": "the claim spans the whole pipeline (directories, purge, comparison, acceptance, index, report) and all sets of tests; the test-suite checks single cases", "anchors": ["booktest/testrun.py:TestRun.run_async", "booktest/testrun.py:TestRun.run_case", "booktest/testcaserun.py:TestCaseRun.__init__", "booktest/testcaserun.py:TestCaseRun.end", "booktest/review.py:freeze_case", "booktest/review.py:create_index"]}
{"id": "C82", "title": "A plain run changes no snapshot", "statement": "A run without -a, -u, -i and -I changes nothing outside of the output directory but the index and new directories, whatever the tests print and however the run ends.", "quantifier": "every project, every selection, every state of the files", "why_tests_cant": "all file systems and all paths; a test can compare only the files it knows of", "anchors": ["booktest/testrun.py:TestRun.run_async", "booktest/testcaserun.py:TestCaseRun.__init__", "booktest/testcaserun.py:TestCaseRun.file", "booktest/review.py:case_review"]}
{"id": "C83", "title": "Tests do not influence each other", "statement": "The result of a test after review, and the snapshot that it leaves, do not depend on which tests are executed before it in the same run.", "quantifier": "every project, every pair of orders, every state of the files, every setting that does not ask the user", "why_tests_cant": "all sets of names and all orders", "anchors": ["booktest/testrun.py:TestRun.run_case", "booktest/testcaserun.py:TestCaseRun.__init__", "booktest/review.py:freeze_case"]}
{"id": "C84", "title": "Messages of a test go to its log", "statement": "What a test writes to sys.stderr or logs is in its log file, in order and with nothing else, log records in the format of the first log handler; nothing of it reaches the console or another log file; after the test sys.stderr and the log handlers are as before.", "quantifier": "every sequence of tests, every state of sys.stderr and the handlers before, everything a test does to them", "why_tests_cant": "the redirection is global state that survives from test to test; a test only sees the state of its own process", "anchors": ["booktest/testcaserun.py:TestCaseRun.__init__", "booktest/testcaserun.py:TestCaseRun.open", "booktest/testcaserun.py:TestCaseRun.close"]}
{"id": "C85", "title": "The console report says what happened", "statement": "The plain console report of a sequential run lists exactly the executed tests in order, each with the result of its comparison, and its summary gives the number of tests and exactly the tests that are not OK after review; it says succeeded iff the exit code is 0. In every mode, and for --review, the report ends with this summary.", "quantifier": "every list of tests, every result, review, duration and configuration", "why_tests_cant": "the report is text assembled in several places of a loop that can stop early; all lists, results and names cannot be enumerated", "anchors": ["booktest/review.py:start_report", "booktest/review.py:report_case_begin", "booktest/review.py:report_case_result", "booktest/review.py:end_report", "booktest/review.py:review", "booktest/testrun.py:TestRun.run_async"]}
{"id": "C86", "title": "A stored case is shown like the live one", "statement": "What --review (or the main process of a parallel run) shows of a test from its stored files is what the test showed on the console while it was run: report, logs, result.", "quantifier": "every test, every snapshot, all names, logs, results and modes", "why_tests_cant": "the live path and the stored path are different code; equality for all reports needs the line structure of everything a test can print", "anchors": ["booktest/review.py:report_case", "booktest/review.py:maybe_print_logs", "booktest/testcaserun.py:TestCaseRun.report", "booktest/testcaserun.py:TestCaseRun.print"]}
{"id": "C87", "title": "Exactly the tests in test files are found", "statement": "The command line offers exactly the test books, suites and test_ functions of the modules in the test files (\u2026_test.py, \u2026_book.py, \u2026_suite.py, test_\u2026.py) below the test paths, functions named by path, file and function; the order in which directories are listed does not matter; the search fails iff one of these modules cannot be loaded or a __booktest__.py is bad.", "quantifier": "every directory tree, every set of modules, every setting of test_paths", "why_tests_cant": "all trees and modules; the tests see one project", "anchors": ["booktest/detection.py:detect_tests", "booktest/detection.py:parse_test_file", "booktest/cli.py:setup_test_suite"]}
{"id": "C88", "title": "Detected tests have distinct names", "statement": "No two detected tests have the same name.", "quantifier": "every directory tree and every set of modules", "why_tests_cant": "collisions depend on pairs of files anywhere in the tree", "anchors": ["booktest/detection.py:parse_test_file", "booktest/naming.py:clean_test_postfix"]}
{"id": "C89", "title": "The process setup is that of the project", "statement": "The process setup in use is that of a __booktest__.py below the last test path that has one, and it does not depend on the order in which directories are listed.", "quantifier": "every directory tree, every set of modules, every listing order", "why_tests_cant": "the listing order is chosen by the operating system", "anchors": ["booktest/detection.py:detect_setup", "booktest/detection.py:parse_booktest_setup", "booktest/cli.py:setup_test_suite"]}
{"id": "C90", "title": "Parallel and sequential runs agree", "statement": "A completed parallel run of tests whose results depend only on the tests they depend on, without a user and without fail fast, records exactly the tests and results that a sequential run of the same command executes, has the same exit code, and leaves a report with the same entries in some order.", "quantifier": "every suite with dependencies and resources, every schedule of the workers, every old report", "why_tests_cant": "the schedules of the workers cannot be enumerated; a test sees one of them", "anchors": ["booktest/runs.py:parallel_run_tests", "booktest/runs.py:ParallelRunner", "booktest/testrun.py:TestRun.run_async"]}
{"id": "C91", "title": "Slow tests are started first", "statement": "Of the tests that a parallel run can start at a moment, those that took longer in the last run are started first, ties by name; which tests these are does not depend on the order in which a set is enumerated.", "quantifier": "every suite, every old report, every state of the run, every enumeration of the sets", "why_tests_cant": "the enumeration of a set of strings differs from process to process", "anchors": ["booktest/runs.py:ParallelRunner.plan", "booktest/runs.py:ParallelRunner.__init__"]}
{"id": "C92", "title": "The number of workers is the one asked for", "statement": "-p, -pN, --parallel-count N and the setting parallel in the files or in the environment give as many workers as they say: N, or as many as there are CPUs.", "quantifier": "all option values, settings and numbers of CPUs", "why_tests_cant": "all numbers and all origins of the setting; the conversion of settings treats some numbers specially", "anchors": ["booktest/runs.py:ParallelRunner.__init__", "booktest/tests.py:Tests.exec_parsed", "booktest/config.py:resolve_default_config"]}
{"id": "C93", "title": "The output of a parallel run is that of its tests in order", "statement": "After a parallel run, output.txt (and every other text file that the workers leave, except the report) is the concatenation of what the workers wrote, in the order of the list of tests.", "quantifier": "every schedule of the workers, every order in which directories are listed, all texts", "why_tests_cant": "schedules and listing orders are chosen by the operating system", "anchors": ["booktest/runs.py:parallel_run_tests", "booktest/runs.py:ParallelRunner.batch_dirs", "booktest/reports.py:read_lines", "booktest/reports.py:write_lines", "booktest/runs.py:RunBatch.__call__"]}
{"id": "C94", "title": "Tests receive the values of their dependencies", "statement": "A test with depends_on is called with the book, the test case and, in the declared order, the values of its resources and of its dependencies; for a dependency, the value its test returned when it was last executed without failing, in this run or an earlier one. If such a value does not exist, the test fails without being called.", "quantifier": "every suite, every use of decorators, every cache, every list of tests and every behaviour of the tests", "why_tests_cant": "the value passes through a bounded cache and files; a test fixes one suite and one order", "anchors": ["booktest/dependencies.py:depends_on", "booktest/dependencies.py:call_class_method_test", "booktest/dependencies.py:call_function_test", "booktest/testrun.py:TestRun.get_test_result", "booktest/testrun.py:TestRun.save_test_result", "booktest/testrun.py:TestRun.run_case"]}
{"id": "C95", "title": "Declared resources are exclusive", "statement": "Tests that run at the same time have no resource in common among those declared with depends_on, whatever other decorators are used; resources of different ports, and of a port and a number, are different.", "quantifier": "every suite, every use of decorators, every schedule", "why_tests_cant": "schedules are chosen by the operating system; an overlap shows only in a few of them", "anchors": ["booktest/dependencies.py:depends_on", "booktest/dependencies.py:Resource", "booktest/dependencies.py:port", "booktest/runs.py:ParallelRunner.plan", "booktest/tests.py:Tests.method_resources"]}
{"id": "C96", "title": "Directories made by the shell are the right ones", "statement": "Before a test runs, exactly the directory of its snapshot and that of its output are made (by mkdir -p in a shell).", "quantifier": "every name of a test, every directory of books, every state of the files", "why_tests_cant": "names with characters that are special to the shell are unbounded; the test-suite uses plain ones", "anchors": ["booktest/testcaserun.py:TestCaseRun.__init__"]}
{"id": "C97", "title": "Preparing a parallel run removes nothing but old batches", "statement": "prepare_batch_dir empties the directory .batches in the output directory and changes nothing else.", "quantifier": "every output directory and every state of the files", "why_tests_cant": "the command line is made from a path without quotes; a test would have to try every path", "anchors": ["booktest/runs.py:prepare_batch_dir", "booktest/runs.py:batch_dir"]}
{"id": "C98", "title": "--print prints the snapshots", "statement": "--print prints the contents of the snapshots of the selected tests that have one, in order.", "quantifier": "every set of names and every state of the files", "why_tests_cant": "names with characters that are special to the shell", "anchors": ["booktest/tests.py:Tests.exec_parsed"]}
{"id": "C99", "title": "The exit status tells success", "statement": "The process exits with status 0 if and only if all executed tests passed, else with 255; --view exits with 0 only if the viewer succeeded.", "quantifier": "every run and every status of the viewer", "why_tests_cant": "the status passes through several conversions (result, number, 8 bits); the test-suite looks at the number only", "anchors": ["booktest/reports.py:test_result_to_exit_code", "booktest/cli.py:main", "booktest/review.py:run_tool", "booktest/runs.py:run_tests"]}
{"id": "C100", "title": "Tests come to an end", "statement": "A test that makes finitely many calls of the testing API and returns or raises comes to an end exactly if no text that it prints (including the message and the traceback of the exception) contains a NUL character, whatever the snapshot is.", "quantifier": "every test, every snapshot, every state", "why_tests_cant": "loops over snapshot lines, tokens and set items; a test cannot show that a loop ends for every snapshot", "anchors": ["booktest/testcaserun.py:TestCaseRun.seek", "booktest/testcaserun.py:TestCaseRun.feed", "booktest/testcaserun.py:TestCaseRun.tset", "booktest/testcaserun.py:TestCaseRun.tdf", "booktest/testrun.py:TestRun.run_case"]}
{"id": "C101", "title": "Only passed tests are skipped, whatever happened before", "statement": "After any sequence of sequential and parallel runs, reviews, --forget and --clean, each of them complete, left by an exception or killed at any point, -c skips a test only if it ended OK when it was last executed, or was found or made OK by a review after that. A test whose execution was begun and not finished is never skipped. The report never has two records of a test.", "quantifier": "every sequence of commands, every point at which each of them stops, every schedule of parallel runs", "why_tests_cant": "sequences of interrupted commands are unbounded and depend on timing", "anchors": ["booktest/reports.py:CaseReports.cases_to_done_and_todo", "booktest/testrun.py:TestRun.run_async", "booktest/runs.py:parallel_run_tests", "booktest/review.py:review", "booktest/tests.py:Tests.exec_parsed"]}
{"id": "C102", "title": "Workers ask nothing and report on their own test", "statement": "A worker of a parallel run asks the user nothing, whatever the settings. Whatever it does (ends, fails in the setup, raises, dies at any point), the report it leaves, if any, has at most the record of its own test with the result the test had there; so every record of a parallel run is the result of an execution, its review, or the review of a made-up failure. Both kinds of runs return the exit code of the tests if setup and teardown end well; a teardown that raises makes a sequential run raise.", "quantifier": "every setup, every outcome of the tests, every point at which workers die, every schedule, every answer", "why_tests_cant": "workers that die or whose setup fails are hard to provoke at every point", "anchors": ["booktest/runs.py:RunBatch.__call__", "booktest/runs.py:ParallelRunner.__init__", "booktest/runs.py:run_tests", "booktest/detection.py:BookTestSetup", "booktest/utils.py:SetupTeardown"]}
{"id": "C103", "title": "Tests that run at the same time do not disturb each other", "statement": "In a parallel run each test does to its own files exactly what it would do alone, whatever the order in which the operating system executes the file operations of the processes and whichever of them are killed: the same result, the same outputs and the same snapshot as in a sequential run. No file operation fails because of another test, no process waits for another one, and files of no test stay as they are, except the index.", "quantifier": "every interleaving of the file operations of the workers, every point at which they die, every project, every state of the files", "why_tests_cant": "the number of interleavings is astronomic and the schedule is chosen by the operating system", "anchors": ["booktest/runs.py:RunBatch.__call__", "booktest/testrun.py:TestRun.run_case", "booktest/testcaserun.py:TestCaseRun.__init__", "booktest/testcaserun.py:TestCaseRun.start", "booktest/testcaserun.py:TestCaseRun.end", "booktest/review.py:freeze_case"]}
{"id": "C104", "title": "Snapshots are accepted outputs, whatever is killed", "statement": "After any number of sequential and parallel runs, each finished or killed at any point, with tests, options and answers that change from run to run, the snapshot of a test is the one that was there in the beginning, or the complete output of the test in one of these runs that executed it, where it did not fail and was accepted: by -u, by -a, or by the user entering a. Without these, snapshots never change. No operation of a run spoils the layout of the directories.", "quantifier": "every sequence of runs, every point at which each of them stops, every interleaving, every answer, every state of the files", "why_tests_cant": "histories of interrupted runs are unbounded, and interleavings are chosen by the operating system", "anchors": ["booktest/review.py:freeze_case", "booktest/review.py:case_review", "booktest/review.py:interact", "booktest/testrun.py:TestRun.run_case", "booktest/testrun.py:TestRun.run_async", "booktest/runs.py:RunBatch.__call__", "booktest/runs.py:parallel_run_tests", "booktest/testcaserun.py:TestCaseRun.end"]}
{"id": "C105", "title": "--review accepts the output of the latest execution", "statement": "After any sequence of sequential and parallel runs, reviews, --forget and --clean, each of them complete, left by an exception or killed at any point, with tests, options and answers that change from command to command: a record that does not say FAIL is about the latest execution of the test, which came to its end; the output file is all that this execution printed and the record is its verdict, or the output has been accepted and is the snapshot. If --review changes a snapshot, the new one is the complete output of the latest execution, which did not fail and whose recorded verdict the settings or the answers accept. A snapshot is the first one or the complete output of an execution that did not fail.", "quantifier": "every sequence of commands, every point at which each of them stops, every interleaving of the workers, every answer, every state of the files", "why_tests_cant": "report and outputs are separate files that are written at different moments; their agreement has to hold after every sequence of interrupted commands", "anchors": ["booktest/review.py:review", "booktest/review.py:case_review", "booktest/review.py:freeze_case", "booktest/reports.py:CaseReports.write_case", "booktest/testrun.py:TestRun.run_async", "booktest/runs.py:parallel_run_tests", "booktest/testcaserun.py:TestCaseRun.end", "booktest/testcaserun.py:TestCaseRun.start"]}
{"id": "C106", "title": "The command line is understood as it is meant", "statement": "A command line is accepted if and only if it is a sequence of options (a name or an unambiguous beginning of one, letters together, arguments separate or after =) with the names of test cases in one piece somewhere between them, or at the end after --, all of them choices of the test suite. Then the settings are those of the last option about each of them and otherwise what files and environment say, the command is the last one given, and the tests are the names given. A command line has one meaning.", "quantifier": "every list of arguments, every test suite, every configuration", "why_tests_cant": "all argument lists cannot be enumerated; options interact through order, abbreviation and grouping", "anchors": ["booktest/tests.py:Tests.setup_parser", "booktest/tests.py:Tests.exec_parsed", "booktest/tests.py:Tests.exec", "booktest/cli.py:main"]}
{"id": "C107", "title": "Commands do what their words say", "statement": "Whole commands: a command line that cannot be read changes nothing and executes nothing; -l, --path, --print, --view, --config and --garbage change nothing and execute nothing; --garbage lists exactly the files below the directory of the books that belong to no test, and --clean removes exactly these; a command line without command runs the selected tests with the settings that the command line, the environment and the files say; `booktest ARGS -l` lists what `booktest ARGS` executes; after `--forget TESTS` even -c lists these tests; no sequence of commands changes a snapshot unless -u, -a, -i or -I is switched on in one of them, not even --clean, --review and --setup; and after `booktest -a TESTS` both this command and `booktest TESTS` exit with 0.", "quantifier": "for all projects, test suites, worlds (files, case report, settings, environment), command lines, typed lines, and all finite sequences of commands", "why_tests_cant": "tests run single commands in a prepared directory; they cannot run all sequences of all command lines with all configurations from every state of the files", "anchors": ["booktest/tests.py:Tests.exec_parsed", "booktest/cli.py:main", "booktest/cli.py:exec_parsed", "booktest/runs.py:run_tests", "booktest/config.py:get_default_config", "booktest/review.py:review"]}
{"id": "C108", "title": "HTTP mocks are confined to their blocks", "statement": "In a block of snapshot_requests every request, and every redirect it follows, is answered by the adapter of the innermost block and by nothing else; outside of blocks requests go where they go without mocks, and after the test send and get_adapter are as before. With httpx a request comes to the blocks around it from the inside to the outside, until one has a snapshot or does not capture, and to the network only after all of them; after the test both transport methods are the original ones.", "quantifier": "every test: all nestings and sequences of blocks, all sessions, requests, numbers of redirects, and blocks left at any point", "why_tests_cant": "nesting, redirects and exceptions combine without bound; a leaked patch shows only in a later test", "anchors": ["booktest/requests.py:SnapshotRequests.start", "booktest/requests.py:SnapshotRequests.stop", "booktest/requests.py:_set_method", "booktest/httpx.py:SnapshotHttpx.start", "booktest/httpx.py:SnapshotHttpx.stop", "booktest/httpx.py:SnapshotHttpx.handle_request"]}
{"id": "C109", "title": "Concurrent requests are replayed, whatever the order", "statement": "A test that makes requests in several tasks at the same time sees in a replay, in each task, what it saw when the snapshots were captured, and lists the same snapshots, whatever the order in which the event loop runs the tasks and the server answers, in the capture and in the replay.", "quantifier": "all tests with any number of tasks, every schedule of the capture, every schedule of the replay, all answers", "why_tests_cant": "the schedules are chosen by the event loop and by the speed of the servers", "anchors": ["booktest/httpx.py:SnapshotHttpx.handle_async_request", "booktest/httpx.py:SnapshotHttpx.lookup_snapshot", "booktest/httpx.py:SnapshotHttpx.mark_order", "booktest/httpx.py:SnapshotHttpx.stop", "booktest/requests.py:SnapshotAdapter.send"]}
{"id": "C110", "title": "Function snapshots are told apart by function and arguments", "statement": "The digest under which the result of a snapshotted function is kept tells the function and all its arguments, so that a replay gives for a call the last result the capture run got from the same function with the same arguments, and never the result of another function or of other arguments.", "quantifier": "all calls with arguments of any JSON value (of any depth and size), all capture runs, all replays of any test, all digests that do not collide for the calls of these runs", "why_tests_cant": "calls that are mixed up need a test with just these two calls; the digest is a function of arbitrary nested values", "anchors": ["booktest/functions.py:FunctionCall.__init__", "booktest/functions.py:FunctionCall.from_properties", "booktest/functions.py:SnapshotFunctions.snapshot"]}
{"id": "C111", "title": "Requests are told apart by what is not ignored", "statement": "The n-th of equal requests is taken for the m-th of other equal requests exactly if n = m and the requests have the same URL, method, body and headers, where ignored headers and the order of headers do not matter.", "quantifier": "all requests with any headers, all settings of ignore_headers, all n and m, all digests that do not collide for the two texts", "why_tests_cant": "a request is taken for another one only for special pairs of requests, and the texts that are hashed are of any length", "anchors": ["booktest/requests.py:json_to_sha1", "booktest/requests.py:RequestKey", "booktest/httpx.py:RequestKey"]}
{"id": "C112", "title": "Assertions about objects decide the verdict", "statement": "A test that creates objects with t.it and member and asserts things about them fails exactly if some assertion does not hold for its object or raises, a member cannot be selected, an object is missing, or another call marks an error. Every assertion is evaluated on the object it is about (a member is what was selected from its parent), objects are announced under their full names in the order of their creation, and every assertion prints what is expected and ok, FAILED or the actual type.", "quantifier": "all sequences of steps over objects of any type, all conditions and selections (which may raise), all snapshots", "why_tests_cant": "a test of the testing tool tries a few objects and conditions; the claim is about every chain of members and every mixture of assertions with other output", "anchors": ["booktest/testcaserun.py:TestIt", "booktest/testcaserun.py:TestCaseRun.it", "booktest/testcaserun.py:TestCaseRun.must_apply", "booktest/testcaserun.py:TestCaseRun.must_contain", "booktest/testcaserun.py:TestCaseRun.must_equal", "booktest/testcaserun.py:TestCaseRun.must_be_a"]}
{"id": "C113", "title": "Pictures are kept and compared by their contents", "statement": "A test that writes pictures, renames them to their hashes and shows them has in the end each of them with its contents under its digest in the directory of the test, whatever other pictures it shows, and nothing else there, and touches nothing elsewhere; the line of a picture names exactly this file relative to the book; and the test passes exactly if its pictures are the first pictures of the accepted snapshot, with the same contents and extensions.", "quantifier": "all sequences of pictures with any contents, all places of the book, all states of the file system, all digests that do not collide for the pictures", "why_tests_cant": "contents and names of files cannot be enumerated; pictures that overwrite each other need special combinations", "anchors": ["booktest/testcaserun.py:TestCaseRun.file", "booktest/testcaserun.py:TestCaseRun.rename_file_to_hash", "booktest/testcaserun.py:TestCaseRun.timage", "booktest/testcaserun.py:TestCaseRun.rel_path"]}
{"id": "C114", "title": "A parallel run does not use reports of earlier runs", "statement": "When the workers of a parallel run are started, the directory .batches holds an empty directory for each test that is to be run and nothing else, whatever was there before, and outside of it only missing parent directories have been made. So a worker that dies before it opens its report makes its test fail; no result of an earlier run is taken for it.", "quantifier": "all states of the file system in which no file is in the way of the output directory, all output directories, all lists of tests", "why_tests_cant": "leftovers of earlier runs and workers that die at their start are rare, and the wrong result they would cause looks like a right one", "anchors": ["booktest/runs.py:prepare_batch_dir", "booktest/runs.py:ParallelRunner.__init__", "booktest/runs.py:case_batch_dir_and_report_file", "booktest/runs.py:parallel_run_tests"]}
{"id": "C115", "title": "Real calls are made once and passed through unchanged", "statement": "While function calls or requests are captured, every call that is not answered from a snapshot is really made, exactly once and at its place in the order of the test, and the test sees exactly what it did: its value or its exception.", "quantifier": "all stored snapshots, modes, tests (which may react to what they see) and behaviours of functions and servers", "why_tests_cant": "calls that fail and are repeated, and functions with side effects, in every mixture with stored calls", "anchors": ["booktest/functions.py:SnapshotFunctions.snapshot", "booktest/requests.py:SnapshotAdapter.send", "booktest/httpx.py:SnapshotHttpx.handle_request"]}
{"id": "C116", "title": "Requests with different bodies are different", "statement": "The body in the key of a request is the base 64 form (RFC 4648) of the bytes that are sent, a text being sent as UTF-8, from which the bytes can be recovered; bodies that are neither texts nor bytes raise. So with the default encoding of bodies a request is answered from the snapshot of another one only if both have bodies of the same bytes (or both none), however long they are.", "quantifier": "all bodies, requests, ignored headers and places among equal requests; the digest is any function that does not collide for the two texts", "why_tests_cant": "bodies of all lengths and remainders modulo three cannot be enumerated", "anchors": ["booktest/requests.py:default_encode_body", "booktest/requests.py:RequestKey.from_properties", "booktest/httpx.py:RequestKey.from_properties"]}
{"id": "C117", "title": "Snapshots in sessions of commands", "statement": "A user gives any commands one after the other, with or without workers and coverage, some of which are killed, and edits tests, settings and files other than snapshots and outputs in between. Whenever a command changes the snapshot of a test, the command is a run or --review, the new snapshot is exactly what the latest execution of the test printed, that execution did not fail, and its verdict was accepted by the settings of this command or by an answer of the user to it. Without -u, -a, -i and -I no snapshot ever changes. A record in the report that is no failure is about the latest execution of its test.", "quantifier": "all sessions that start without a report: all command lines, answers, settings, tests, edits in between, interleavings of workers, and moments at which commands are killed (--clean: if all tests are in directories)", "why_tests_cant": "stale outputs, records and snapshots only meet in special sequences of commands, edits and interrupted parallel runs, of which there is no longest one", "anchors": ["booktest/cli.py:main", "booktest/tests.py:Tests.exec_parsed", "booktest/tests.py:Tests.exec", "booktest/review.py:review", "booktest/review.py:freeze_case", "booktest/testrun.py:TestRun.run_case", "booktest/runs.py:parallel_run_tests"]}
{"id": "C118", "title": "Parallel runs and their files, operation by operation", "statement": "In a parallel run whose scheduler, workers and reviews execute their operations in any order, at any moment: tests at work share no resource and their dependencies have ended; a snapshot is the one from before, or the test has been executed and all that it printed has been accepted by an option or by the user; a recorded test has been executed to the end, and what it printed is in its output file and the record has its verdict, or it is the snapshot and the record says OK; tests that no worker has touched keep their snapshots and outputs. It is assumed that the user is not asked about a test whose worker has died before it opened its report: then an old output can become the snapshot.", "quantifier": "all tests, options, dependencies, resources, answers of the user, initial files without oddities, exceptions in workers, interrupts, and all interleavings", "why_tests_cant": "there are too many interleavings of file operations of several processes to test, and bad ones are rare", "anchors": ["booktest/runs.py:parallel_run_tests", "booktest/runs.py:ParallelRunner", "booktest/runs.py:RunBatch", "booktest/testrun.py:TestRun.run_case", "booktest/review.py:report_case", "booktest/review.py:case_review", "booktest/review.py:freeze_case"]}
{"id": "C119", "title": "JSON texts give back what was written", "statement": "For every value whose dictionaries have string keys that differ, and whose floats have texts of Python's form, json.loads of the text of json.dumps, compact or indented, succeeds and gives back the value with tuples read as lists; so values without tuples come back as they are, and values whose read forms differ have different texts. Without these conditions this is false: the keys 1 and \"1\" become one, and a tuple comes back as a list.", "quantifier": "all values of any depth and size, all strings of Unicode scalar values, all indentations", "why_tests_cant": "nested values and strings with escapes cannot be enumerated", "anchors": ["booktest/functions.py:SnapshotFunctions.stop", "booktest/functions.py:SnapshotFunctions.start", "booktest/env.py:SnapshotEnv.stop", "booktest/requests.py:SnapshotRequests.stop", "booktest/httpx.py:SnapshotHttpx.stop"]}
{"id": "C120", "title": "A partly written JSON file is never read", "statement": "If writing a snapshot file of JSON stops early, the file cannot be read: no proper prefix of the text of an object, a list or a string is accepted by json.loads. So after a kill the next run raises instead of replaying from part of the snapshots. (Numbers do not have this property.)", "quantifier": "all values, all places where the writing stops", "why_tests_cant": "the moments at which a process can be killed and the contents of files cannot be enumerated", "anchors": ["booktest/functions.py:SnapshotFunctions.stop", "booktest/env.py:SnapshotEnv.stop", "booktest/requests.py:SnapshotRequests.stop", "booktest/httpx.py:SnapshotHttpx.stop"]}
{"id": "C121", "title": "Function snapshots through the texts of their files", "statement": "With snapshots kept as JSON texts in files, each under the hash of its call, a replay run reads every file that a capture run wrote, rewrites each with exactly the same text, and gives every call the value the capture run recorded, with tuples as lists. That a replayed value has the type of the recorded one is false: a function that returns a tuple returns a list in a replay.", "quantifier": "all tests (which may react to what they see), all arguments and results that JSON can store, all digests without collisions on the calls of the run, all orders in which the files are listed", "why_tests_cant": "the calls, their arguments and results are of any number and size", "anchors": ["booktest/functions.py:FunctionCall", "booktest/functions.py:FunctionCallSnapshot", "booktest/functions.py:SnapshotFunctions.start", "booktest/functions.py:SnapshotFunctions.snapshot", "booktest/functions.py:SnapshotFunctions.stop"]}
{"id": "C122", "title": "Snapshot files can be read by the next run", "statement": "Every file of environment variables, of requests and of httpx requests that a run writes can be read by the code that loads it and gives back exactly what the run stored: variables that were not set, headers, bodies, orders, hashes, status codes, encodings, and contents, which may be any bytes (base 64 loses none). metrics.json gives back the duration.", "quantifier": "all runs (capture, completion and replay, with or without loss of headers), all requests and responses whose headers have distinct names, all contents", "why_tests_cant": "contents, headers and mixtures of loaded and captured snapshots cannot be enumerated", "anchors": ["booktest/env.py:SnapshotEnv.start", "booktest/env.py:SnapshotEnv.stop", "booktest/requests.py:RequestSnapshot.from_json_object", "booktest/requests.py:RequestSnapshot.json_object", "booktest/requests.py:SnapshotRequests.stop", "booktest/httpx.py:RequestSnapshot.from_json_object", "booktest/httpx.py:RequestSnapshot.json_object", "booktest/httpx.py:SnapshotHttpx.stop", "booktest/reports.py:Metrics"]}
{"id": "C123", "title": "A parallel run leaves the files, records and exit code of a sequential run", "statement": "A parallel run in which every test has been recorded leaves the same snapshots, outputs, files of tests, directories and index as a sequential run of the same tests from the same files, whatever the workers, the scheduler and the main thread did in which order; both reports have the same names and results, and the exit codes are equal. If nothing but operations of tests can fail, then such a run raises nothing, its scheduler does not die, and it does not end by itself before every test is recorded. Nobody is asked, and with -f no test fails that is not accepted; otherwise it depends on the order of ends which test stops the run. With -u this is false: the worker and the main process both accept an output that is OK, the second time raises, and the run ends without recording the test.", "quantifier": "all tests, options other than -i, -I and -u (-f if no test fails that is not accepted), dependencies, resources, initial files without oddities, old reports, interrupts, and all interleavings", "why_tests_cant": "a difference needs one of the rare interleavings of file operations of several processes, and the sequential run must be compared with every one of them", "anchors": ["booktest/runs.py:parallel_run_tests", "booktest/runs.py:ParallelRunner", "booktest/runs.py:RunBatch", "booktest/testrun.py:TestRun.run_case", "booktest/testrun.py:TestRun.run", "booktest/review.py:case_review", "booktest/review.py:freeze_case", "booktest/review.py:create_index"]}
{"id": "C124", "title": "Parallel runs come to their end with the results of a sequential run", "statement": "Every execution of a parallel run, operation by operation, comes to its end without an exception, if no process that can go on is kept waiting forever and nobody interrupts the run: the workers end, every test is recorded exactly once, and the snapshots, outputs, index, records and exit code are those of a sequential run. Such executions exist from every start. (No test hangs, nothing but the operations of tests can fail, nobody is asked, -u is not given, for which this is false by C123, and with -f no test fails that is not accepted.)", "quantifier": "all fair infinite executions, all tests with names that are not nested, dependencies without cycles, resources, options other than -i, -I and -u (-f if no test fails that is not accepted), initial files without oddities, old reports", "why_tests_cant": "termination under every fair schedule is not observable in finitely many finite runs", "anchors": ["booktest/runs.py:parallel_run_tests", "booktest/runs.py:ParallelRunner.thread_function", "booktest/runs.py:ParallelRunner.has_next", "booktest/runs.py:ParallelRunner.next_report", "booktest/runs.py:RunBatch", "booktest/testrun.py:TestRun.run"]}
{"id": "C125", "title": "booktest -p leaves what booktest leaves", "statement": "In a run that a command begins with workers, the tests that the command is to run are executed, each only after its declared dependencies among them have ended, and never two at a time that share a resource. A command with -p put in front of its arguments begins a run with workers, and this run leaves the files, the results in the report, the settings, the tests executed and the exit status of the command without -p; the report may list the tests in another order. This holds for every execution in which no process that can go on is kept waiting forever and which nobody interrupts, and there are such executions. It holds for any two commands that differ in what they say about workers only. A command without a command name begins a run with workers exactly if its number of processes is possible. Nobody is asked, neither -u nor coverage is switched on, and with -f no test fails that is not accepted; no test hangs.", "quantifier": "all command lines that the parser accepts, settings files, projects with plain test names and any dependencies that the selection can order, initial files without oddities, reports, fair executions", "why_tests_cant": "two commands are compared for all arguments, projects and interleavings of processes", "anchors": ["booktest/cli.py:main", "booktest/tests.py:Tests.exec_parsed", "booktest/runs.py:parallel_run_tests", "booktest/runs.py:run_tests", "booktest/runs.py:ParallelRunner", "booktest/reports.py:CaseReports.cases_to_done_and_todo", "booktest/tests.py:Tests.method_dependencies"]}
{"id": "C126", "title": "What has been accepted passes from then on", "statement": "booktest -a, with or without workers, exits with 0 if the tests can be repeated; afterwards every further run of these tests exits with 0 and changes no snapshot, however many runs there are and whichever of them use workers, and also with -a or -c. Such commands come to an end. (No -u, -i, -I and coverage; executions with workers are any in which no process is kept waiting forever and which nobody interrupts.)", "quantifier": "all sequences of commands, all arguments that the parser accepts, settings, tests that can be repeated in the sense of C08, dependencies that the selection can order, initial files without oddities, old reports, all fair executions of workers", "why_tests_cant": "the sequences of commands and the interleavings of their processes are of any number and length", "anchors": ["booktest/cli.py:main", "booktest/tests.py:Tests.exec_parsed", "booktest/runs.py:parallel_run_tests", "booktest/runs.py:run_tests", "booktest/testcaserun.py:TestCaseRun.end", "booktest/review.py:case_review", "booktest/review.py:freeze_case"]}
{"id": "C127", "title": "Tests get the same values with and without workers", "statement": "In a parallel run, every test is called with the same arguments and comes to the same result and value as in a sequential run of the same tests, and the values that are stored at the end are the same, whichever processes execute which tests and in whatever order the accesses to caches and result files and the steps of the scheduler happen. Every test that a worker has taken can be brought to its end. This holds for tests with one depends_on whose dependencies the scheduler finds. It does not hold for dependencies that return None: their dependents pass in a sequential run and fail in a parallel one if another process executes them.", "quantifier": "all suites with decorators of booktest, test functions, selections, stored values, caches that can hold something, numbers of processes, and all interleavings", "why_tests_cant": "which process executes a test, what is in its cache and when it is read is up to the scheduling of processes", "anchors": ["booktest/runs.py:RunBatch", "booktest/runs.py:ParallelRunner", "booktest/runs.py:PROCESS_LOCAL_CACHE", "booktest/testrun.py:TestRun.get_test_result", "booktest/testrun.py:TestRun.save_test_result", "booktest/testrun.py:TestRun.run_case", "booktest/dependencies.py:call_class_method_test", "booktest/dependencies.py:call_function_test", "booktest/dependencies.py:depends_on", "booktest/cache.py:LruCache"]}
{"id": "C128", "title": "Every test is called with the values that are stored at the end of the run", "statement": "A sequential run of tests with dependencies is, in every file, in the report and in its result, the run in which every test is called with the values that its dependencies have stored when the run is over: a test that is executed and does not fail is seen with its new value only, and all others with the values in their result files. So the run does not depend on the cache: every cache gives the same files, report and result, however few results it can hold. This holds for tests that come after those they depend on, and for dependencies that return a value. It does not hold for None: with the cache of booktest, a test that depends on a test that returns None gets it if it is executed soon afterwards, and fails if eight others have been executed in between.", "quantifier": "all projects and tests, which may do with the values of their dependencies what they like, options other than -i and -I, selections in which dependencies come first, initial files without oddities, old reports, caches that can hold something", "why_tests_cant": "the tests may use the values in any way, and what a cache holds depends on all tests executed before", "anchors": ["booktest/testrun.py:TestRun.run_case", "booktest/testrun.py:TestRun.get_test_result", "booktest/testrun.py:TestRun.save_test_result", "booktest/testrun.py:TestRun.run_async", "booktest/dependencies.py:call_class_method_test", "booktest/dependencies.py:call_function_test", "booktest/cache.py:LruCache", "booktest/tests.py:Tests.exec_parsed"]}
{"id": "C129", "title": "Workers and dependencies give what a sequential run gives", "statement": "A parallel run of tests with dependencies in which every test has been recorded leaves the same text in every file and the same directories as a sequential run of the same tests from the same files, records the same results and ends with the same status, whichever process takes which test, whatever is in the caches of the processes, and however the operations of workers, scheduler and main thread are interleaved. Such a run is not left by an exception. If everybody who can go on does so, and no test hangs, then it comes to its end, and every test has been recorded then; there are such executions. This holds if nobody is asked, -u is not given, -f stops nothing, names can be told apart, tests wait for those they depend on, and dependencies return a value (C127 refutes it for None, C123 for -u).", "quantifier": "all projects and tests, which may do with the values of their dependencies what they like, options other than -i, -I and -u, initial files without oddities, old reports, sizes of the caches, numbers of processes, and all interleavings of operations on files, including infinite ones", "why_tests_cant": "what a worker finds in the files and in the cache of its process depends on the interleaving of all processes; that a run always ends cannot be observed at all", "anchors": ["booktest/runs.py:ParallelRunner", "booktest/runs.py:RunBatch", "booktest/runs.py:parallel_run_tests", "booktest/runs.py:PROCESS_LOCAL_CACHE", "booktest/testrun.py:TestRun.run_case", "booktest/testrun.py:TestRun.get_test_result", "booktest/testrun.py:TestRun.save_test_result", "booktest/testrun.py:TestRun.run_async", "booktest/dependencies.py:call_class_method_test", "booktest/dependencies.py:call_function_test", "booktest/cache.py:LruCache"]}
{"id": "C130", "title": "booktest -p leaves what booktest leaves when tests get the results of others", "statement": "In a project whose tests are called with the results of other tests, the command booktest -p ARGUMENTS leaves what booktest ARGUMENTS leaves: the same text in every file, the same directories, the same results in the report, the same exit status, and the same tests executed. This is so whichever process takes which test, for every execution in which no process is kept waiting forever, and there are such executions. The selected tests are in an order in which the results are there when they are needed. Every such command, with coverage or without, is the command in the project whose tests are called with the values that are stored when the command is over. This holds if nobody is asked, -u is not given with workers, -f stops nothing, names can be told apart, the scheduler finds the tests that others depend on, and these return a value. It does not hold for None: what is stored for a test that returns None does not determine what the command does.", "quantifier": "all sites and projects, which may do with the results of other tests what they like, command lines, settings, initial files without oddities, old reports, numbers of processes, and all fair interleavings of operations on files", "why_tests_cant": "the command passes through the parser, the configuration, the selection, the order of tests, the scheduler and all interleavings of the workers; tests see a few of each", "anchors": ["booktest/cli.py:main", "booktest/tests.py:Tests.exec_parsed", "booktest/tests.py:Tests.selected_names", "booktest/tests.py:Tests.method_dependencies", "booktest/runs.py:parallel_run_tests", "booktest/runs.py:run_tests", "booktest/runs.py:ParallelRunner", "booktest/runs.py:PROCESS_LOCAL_CACHE", "booktest/testrun.py:TestRun.run_case", "booktest/testrun.py:TestRun.get_test_result", "booktest/dependencies.py:depends_on", "booktest/cache.py:LruCache"]}
{"id": "C131", "title": "What has been accepted passes from then on when tests get the results of others", "statement": "In a project whose tests are called with the results of other tests, booktest -a, with or without workers, exits with 0 if the tests can be repeated with all values that they may get: those that are stored, and those that such tests return when they get such values. It leaves a state in which every test that it has been about passes when it is called with the stored values and returns the value that is stored for it. From such a state every further run of these tests or some of them exits with 0 and changes neither a snapshot nor a stored value, however many runs there are, whichever of them use workers, and whichever process takes which test; -a, -c and -f change nothing about this. Such commands come to an end. (No -u, -i, -I and coverage.)", "quantifier": "all sequences of commands, all arguments that the parser accepts, settings, projects whose tests may do with the results of others what they like, dependencies that the selection can order and that return a value, initial files without oddities, old reports, all fair executions of workers", "why_tests_cant": "the values that tests get depend on all earlier commands, and the sequences of commands and the interleavings of their processes are of any number and length", "anchors": ["booktest/cli.py:main", "booktest/tests.py:Tests.exec_parsed", "booktest/tests.py:Tests.selected_names", "booktest/runs.py:parallel_run_tests", "booktest/runs.py:run_tests", "booktest/runs.py:ParallelRunner", "booktest/testrun.py:TestRun.get_test_result", "booktest/testrun.py:TestRun.save_test_result", "booktest/testcaserun.py:TestCaseRun.end", "booktest/review.py:case_review", "booktest/dependencies.py:depends_on"]}
{"id": "C132", "title": "Temporary files are private to one execution of a test", "statement": "A test that makes, writes and reads files through tmp_path, tmp_dir and tmp_file, and goes on according to what it finds, always behaves as if it had a place of its own in which nothing is when the test begins, and its directory as soon as it asks for it: what earlier runs have left in temporary files, and what other tests of the same run do with temporary files of the same names, makes no difference to the report, the result and the snapshots of a run. Afterwards the files that the test has left are in its directory, and those of tests that have not been executed are untouched. If what the tests do can be repeated, booktest -a ends with success, and so do all further runs, none of which changes a snapshot. (No questions to the user, names of tests that cannot be mistaken for files of booktest.)", "quantifier": "all tests, whatever sequences of uses of temporary files they make and however they react, all files without oddities, all configurations without questions, selections of tests, old reports", "why_tests_cant": "what a test finds depends on all earlier executions of all tests, and what it does may depend on everything it finds", "anchors": ["booktest/testcaserun.py:TestCaseRun.tmp_path", "booktest/testcaserun.py:TestCaseRun.tmp_dir", "booktest/testcaserun.py:TestCaseRun.tmp_file", "booktest/testcaserun.py:TestCaseRun.__init__", "booktest/testrun.py:TestRun.run_case", "booktest/testrun.py:TestRun.run_async"]}
{"id": "C133", "title": "An interactive run is the dialogue with the user", "statement": "A run with -i or -I asks the user about each test that is executed, with -i only about those that are not OK; lines that mean nothing for the test are skipped, c goes on, q stops the run, and a accepts the output unless the test has failed. The result of the run is the worst result of these tests, in which accepted ones count as OK; every test has the snapshot that the dialogue leaves; the report has exactly these results; the lines that the user has not been asked for are left. Without -a and -u no snapshot changes unless the user enters a. If the lines do not suffice, the run is left by an exception. If the run ends with success, all further runs of these tests that can be repeated end with success and change no snapshot.", "quantifier": "all configurations, sequences of lines that the user enters, projects, selections of tests, files without oddities, old reports, numbers of further runs", "why_tests_cant": "what a line means depends on the tests and lines before it, and tests, lines and further runs are of any number", "anchors": ["booktest/review.py:interact", "booktest/review.py:case_review", "booktest/review.py:freeze_case", "booktest/testrun.py:TestRun.run_async", "booktest/testrun.py:TestRun.run_case", "booktest/testcaserun.py:TestCaseRun.end"]}
{"id": "C134", "title": "A run that is reviewed afterwards is an interactive run", "statement": "If booktest with -i, -I, -a, -u or -f comes to its end with the lines that the user enters, then running the same tests without these options and reviewing them afterwards (-w) with these options and the same lines leaves the same snapshots of all tests and the same results in the report; the tests that the interactive run has not reached, because the user entered q or because of -f, follow with their results without a review. The review ends with 0 if and only if all results that it leaves are OK. (No -c.)", "quantifier": "all projects, selections of tests, configurations, sequences of lines that the user enters, files without oddities, old reports", "why_tests_cant": "the questions of the review depend on the records and files that the earlier run has left, and what a line means on the tests and lines before it; tests and lines are of any number", "anchors": ["booktest/review.py:review", "booktest/review.py:case_review", "booktest/review.py:interact", "booktest/review.py:freeze_case", "booktest/testrun.py:TestRun.run_async", "booktest/testrun.py:TestRun.run_case", "booktest/reports.py:CaseReports"]}
{"id": "C135", "title": "A parallel run with questions is the dialogue in the order of its records", "statement": "At any moment of booktest -p with -i or -I, the results that have been recorded are those of the dialogue with the user (see C133) about the tests in the order in which their results come in, starting from the snapshots before the run and with the lines that the user enters; each of these tests has the snapshot that this dialogue leaves. Only after q, an interrupt or an exception do results follow about which the user has not been asked; they are those of the tests, whose snapshots are unchanged. As long as the reviews go on, the lines that the user has not been asked for are those that the dialogue leaves. If results come in in the order in which the tests are selected, a run of the same tests without -p and with the same lines gives the same results, snapshots and report. In general this is not so: the same lines may accept the output of another test. (No -a and -u; workers that die before they open their report are not asked about.)", "quantifier": "all projects, selections of tests, sequences of lines that the user enters, initial files without oddities, and all interleavings of operations of workers, scheduler and main thread, at any moment", "why_tests_cant": "questions are asked while other workers are writing files; interleavings, tests and lines are of any number", "anchors": ["booktest/runs.py:parallel_run_tests", "booktest/runs.py:ParallelRunner", "booktest/runs.py:RunBatch", "booktest/review.py:interact", "booktest/review.py:case_review", "booktest/review.py:freeze_case", "booktest/reports.py:UserRequest"]}
{"id": "C136", "title": "A review needs a run that has come to its end", "statement": "Whatever commands are given: booktest -w (--review) ends with an exception and changes nothing if there is no metrics.json, whatever the report says. A run that ends without an exception leaves this file, with or without coverage and whatever the verdicts; only --clean removes it and only a run makes it. So -w ends with an exception before the first run and after --clean until tests are run again, and never for lack of this file between a run that has ended and the next --clean. With the file, -w without -u, -a, -i and -I always comes to its end, changes no file and no record, and exits with 0 if and only if all records are OK, those of tests that are not selected among them. That whatever has been recorded can be reviewed is refuted: after a first run that the user leaves at a question, there are records, but -w ends with an exception.", "quantifier": "all projects, command lines, sequences of commands, files, settings, reports, lines that the user enters", "why_tests_cant": "what a review does depends on all commands that were given before it, of which there may be any number", "anchors": ["booktest/review.py:review", "booktest/reports.py:Metrics", "booktest/testrun.py:TestRun.run_async", "booktest/tests.py:Tests.exec_parsed", "booktest/reports.py:CaseReports"]}
{"id": "C137", "title": "booktest and then booktest -w are booktest with questions", "statement": "Given three command lines about the same tests: a run without any of -i, -I, -a, -u, -f, -c, -p and --cov; a run with any of -i, -I, -a, -u, -f; and -w (--review) with these same options, given on the command line, in files or in the environment. If the second command ends without an exception with the lines that the user enters, then the first command followed by the third one with the same lines leaves the same snapshots of all tests, and in the report the same results, followed by those of the tests that the second command has not reached; the third command exits with 0 if and only if all results that it leaves are OK.", "quantifier": "all projects of tests that do not depend on each other and that end, command lines, settings, lines that the user enters, files without oddities, old reports", "why_tests_cant": "the options can be said in many ways, and the questions of the review depend on what the earlier command has left; tests and lines are of any number", "anchors": ["booktest/tests.py:Tests.exec_parsed", "booktest/tests.py:Tests.setup_parser", "booktest/review.py:review", "booktest/review.py:case_review", "booktest/testrun.py:TestRun.run_async", "booktest/config.py:resolve_default_config"]}
{"id": "C138", "title": "A review is the dialogue with the user in the order of the report, also after a run with workers", "statement": "If the outputs of the recorded tests that are selected are in the output directory with the results that are recorded, then a review asks about exactly these tests in the order of their records, and snapshots and new records are those of the dialogue with the user; other records stay as they are and where they are. In particular, after `booktest -p TESTS` without questions, however its workers are scheduled, `booktest -w TESTS` with any of -i, -I, -a, -u, -f is the dialogue about the selected tests in some order, starting from the snapshots before both commands, and its exit status is 0 exactly if all records that it leaves are OK.", "quantifier": "all reports, selections, options other than -c, lines of the user; all fair schedules of the workers, numbers of processes, tests that do not depend on each other and that end, command lines, settings, old reports", "why_tests_cant": "the order of the records depends on the schedule, and what is asked later depends on what was answered earlier; there are arbitrarily many schedules, tests and answers", "anchors": ["booktest/review.py:review", "booktest/review.py:case_review", "booktest/runs.py:ParallelRunner", "booktest/runs.py:parallel_run_tests", "booktest/tests.py:Tests.exec_parsed", "booktest/reports.py:CaseReports.of_file"]}
{"id": "C139", "title": "After a review that succeeds the tests pass", "statement": "If a review exits with 0 then all further runs without questions of the recorded tests that were selected, or of some of them, end with success and change no snapshot, whatever the user has answered and also if the user has left the review early. (A run with questions does not have this property, see C133.) This holds in particular for `booktest -w` after `booktest -p`, for every schedule of the workers. `booktest -w -a` after `booktest -p` does exit with 0 if no test fails and the records of other tests are OK.", "quantifier": "all reports, selections, options of the review other than -c, lines of the user, sequences of later runs with any options that do not ask or update; all fair schedules of the workers, command lines, settings, old reports", "why_tests_cant": "the guarantee is about all later runs, after any answers and any schedule of an earlier command", "anchors": ["booktest/review.py:review", "booktest/review.py:case_review", "booktest/review.py:freeze_case", "booktest/runs.py:parallel_run_tests", "booktest/tests.py:Tests.exec_parsed", "booktest/testrun.py:TestRun.run_async"]}
{"id": "C140", "title": "A review that was left can be continued", "statement": "After a run without questions, any number of reviews of its tests can be made one after the other, with any answers that suffice for what is asked: each of them is the dialogue about the selected tests with the snapshots that are there then. Tests that an earlier review has accepted, whose outputs are gone because they have become the snapshots, are OK in the later ones and are not asked about again; tests that were skipped, or that were not reached because the user has left, are asked about again with the same output. If in the end all of these tests are recorded as OK, then they pass in all further runs. Other records stay as they are. A review whose answers do not suffice ends with an exception.", "quantifier": "all projects with repeatable tests, old reports, selections, numbers of reviews, options of each review other than -c, -I and -u, lines of the user in each of them, later runs that do not ask or update", "why_tests_cant": "an earlier review moves files that a later one could need, and there are arbitrarily many reviews with arbitrary answers", "anchors": ["booktest/review.py:review", "booktest/review.py:case_review", "booktest/review.py:freeze_case", "booktest/review.py:interact", "booktest/reports.py:CaseReports"]}
{"id": "C141", "title": "A run and as commands any number of reviews", "statement": "After `booktest TESTS` without questions, with workers or without, any number of commands `booktest -w TESTS` can be given one after the other, each with any of -i, -a, -f and any answers that suffice for what is asked. Each of them is the dialogue about the selected tests in the order of the report, with the snapshots that are there when it begins, and writes a report with the same names in the same order and with the results of the dialogue, leaving the records of other tests as they are; its exit status is 0 exactly if all records are OK then. If in the end all records of the selected tests are OK, then these tests pass, and so does every later command that runs them (C126). (Refuted for a review that is left by an exception because the lines end: what was accepted is stored, but the report is not written, and the next review that accepts this test ends with an exception.)", "quantifier": "all projects with repeatable tests that do not depend on each other, command lines, settings, old reports; all fair schedules of the workers of the first command; all numbers of reviews, and options and lines of the user in each of them", "why_tests_cant": "each command reads what the one before has left in the report, the snapshots and the outputs; there are arbitrarily many commands, answers and schedules", "anchors": ["booktest/tests.py:Tests.exec_parsed", "booktest/review.py:review", "booktest/review.py:case_review", "booktest/review.py:freeze_case", "booktest/reports.py:CaseReports", "booktest/runs.py:parallel_run_tests"]}
