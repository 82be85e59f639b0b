# Formal model of asap_filesystem

This directory holds a Lean 4 model of the C++ library in `/repo`
(`asap::filesystem`, a C++17-style `<filesystem>`), and machine-checked theorems about it.
`properties.jsonl` states the properties in words, `MANIFEST.json` maps each to theorems,
`seeded/LOG.jsonl` records tests of the theorems against wrong programs.

Build: `lake build` in `lean/`. No Mathlib module is imported.

## Trusted base

* Lean 4.33.0's kernel. Property theorems depend on at most `propext`, `Classical.choice` and `Quot.sound`.
  No axioms of our own, no `sorry`, no `native_decide`, no `bv_decide`.
* The faithfulness of the hand-written model to the C++ text. Every model definition cites the file and lines it models
  and says where it simplifies. Nothing was compiled or run: the code was read as text.
* The C++ standard library pieces the code calls (`std::string`, `std::vector`, `std::quoted`, `std::mismatch`,
  `std::stack`, `std::shared_ptr`, chrono casts) behave as the standard says; they are modelled by lists and integers.
* The operating system. By default nothing is assumed: a library call is a tree of system calls (`Prog`), and theorems speak about
  all executions `Exec p t o`, i.e. all sequences of answers `t`. Theorems about what happens to files assume a relation
  between an abstract state, a system call with its answer, and the next state (`Steps step`). These relations are small, given next to the
  theorems, allow any effect for calls they do not describe, and come with a lemma that every call has an answer (so they are not vacuous).
* The meaning of `FlagTest`, `SetEntriesInAcl` and the Windows access check in C59, which come from outside the repository; they are
  explicit definitions of the specification.

## Modelling conventions

* A `char` string is `List Char`. Only code points below 256 occur in C++; theorems hold for all `Char`, ordered by code point,
  which is the unsigned byte order of `std::char_traits<char>`. System calls get the text of a path; embedded null characters are treated by C120 for POSIX (what the system sees is `Spec.Prog.asC`), not for Windows.
* `Plat` selects the POSIX or the Windows branch of `#if defined(ASAP_WINDOWS)` in `class path`.
* Undefined behaviour, `std::out_of_range`, a failed `ASAP_ASSERT` and the use of a null or closed stream are distinct outcomes (`Fault`,
  `Stop.fault`). A theorem that a function returns `.ok` excludes them.
* `EcArg` is the parameter `std::error_code *ec`: null for the throwing overloads. Exceptions are an outcome (`Stop.thrown`) carrying
  message, paths and code. Most theorems describe the `error_code` overload; C23 carries them over to the throwing one.
* Copy elision matters here: `path(path&&)` re-parses the text, so a function returning a local may return the patched object (elided) or a
  re-parsed one. Functions for which this is visible take an `elide : Bool` argument, and theorems hold for both values or say which.
* Loops that the code does not bound take a fuel argument; running out of it is an outcome of its own (`Stop.fuel`), and termination theorems say
  how much fuel is enough.
* When the code violates a property, the negation is proved with a concrete witness (`..._violated`), and the part that holds is proved as a
  theorem with suffix `_partial` whose comment says what is missing.
* Specifications live in `namespace Spec` and do not use the helpers of the model. Beside each theorem is an `example` with a concrete case
  that meets its hypotheses.

## Map of the model

| Lean | C++ |
|----|----|
| `Path/Model` | `include/filesystem/fs_path.h`, `src/fs_path.cpp`: parsing, modifiers, decomposition, comparison, normalisation, relative paths, both platforms |
| `Path/Source` | `include/filesystem/fs_path.h:61-177, 270-342, 542-549`: the forms of character sequences paths are made from, for `char` |
| `Path/Iter` | `path::iterator` |
| `Path/Quoted` | `operator<<`, `operator>>` |
| `Path/Hist` | all public operations of `path` as statements of a program over path variables |
| `Os/Prog` | system calls, program trees, executions; `src/fs_error.h`, `filesystem_error.h` |
| `Os/Kernel` | a specification, no code of the library: a POSIX file system of inodes, path resolution, and the calls that operate on it (C125). Simplified: one user, no permissions checked, no times, no open files; `rename` and `remove` refuse names that end in a separator |
| `Ops/Status` | `src/fs_error.h`, `src/posix/stat.cpp`, `fs_file_status.h`, predicates of `fs_ops.h` |
| `Ops/Time` | `src/posix/time.cpp`, `last_write_time` |
| `Ops/Simple` | `src/fs_ops.cpp`: absolute, canonical, weakly_canonical, relative, proximate, copy_symlink, create_directory, create_directories, links, current_path, equivalent, file_size, hard_link_count, permissions, read_symlink, remove, rename, resize_file, space, temp_directory_path |
| `Ops/CopyFile` | `copy_file` with both copy loops, `src/posix/file.cpp`, `FileDescriptor` |
| `Ops/Variants` | the builds with `fcopyfile`, with `utime` or nothing for `utimensat`, and without `AT_SYMLINK_NOFOLLOW` |
| `Ops/Recursive` | `is_empty`, `remove_all`, `copy` |
| `Ops/Bitmask` | operators of the option types |
| `Dir/Entry` | `directory_entry`: `fs_dir.h:35-369`, `fs_dir_iterator.cpp:23-524` |
| `Dir/Iter` | streams, `directory_iterator`, `recursive_directory_iterator` |
| `Dir/Shared` | copies of iterators sharing streams |
| `Win/Time`, `Win/Perms`, `Win/Sec` | `src/windows/time.cpp`, `src/windows/permissions.cpp` (what is computed, and the calls made) |
| `Win/Canonical` | `canonical_impl` on Windows, `fs_ops.cpp:99-162` |
| `Win/Whole` | `canonical_impl` on Windows with `do_absolute` and all calls, `fs_ops.cpp:83-162` |
| `Win/Base` | `src/windows/stat.cpp`, `FileDescriptor` on Windows, `status`, `symlink_status`, `read_symlink` |
| `Win/Ops` | the Windows branches of `fs_ops.cpp` without directory iteration |
| `Win/Entry` | the Windows branches of `directory_entry` |
| `Win/Dir` | streams over `FindFirstFileW`, iterators, `is_empty`, `remove_all` on Windows |
| `Win/Copy` | `copy` on Windows |
| `Win/World` | specification of an unchanging Windows disk |
| `Win/Agree` | relation of the two overloads of every Windows function |
| `Win/Weakly` | `weakly_canonical`, `proximate`, `relative` on Windows |
The other files hold lemmas; `Props/*` hold the specifications and the property theorems.

## Properties

| id | property | status | theorems | how proved |
|----|----|----|----|----|
| C01 | Parsing a string into path elements is total and follows the POSIX path grammar | proved | `c01_parse` | Loop invariant of the index scan; equality with a grammar that cuts at every slash. Every string is accepted and decomposes as the grammar says (POSIX). |
| C02 | A path is determined by its native string: re-parsing, copying and moving change nothing | proved | `c02_reparse`, `c02_alike` | Corollary of C01 and the representation invariant `Shape`. Over all values reachable by histories without an eliding parent_path. |
| C03 | root_path, relative_path and their parts reassemble the path | proved | `c03_decomposition` | Case analysis on the grammar, closed forms of the observers.  |
| C04 | parent_path drops exactly the last filename | proved | `c04_parent` | Element-list lemma, both values of the elision parameter.  |
| C05 | stem and extension split the filename | proved | `c05_stem_extension` | Closed form of `FindExtension`.  |
| C06 | operator/ follows POSIX append rules and is associative | proved | `c06_append_text`, `c06_append_elements`, `c06_append_assoc` | Text equation of append for both capacity branches, then associativity.  |
| C07 | compare is a total order on element sequences | proved | `c07_compare`, `c07_total_order` | `compare` equals the lexicographic order on element lists; order laws.  |
| C08 | Equal paths hash equally | proved | `c08_hash` | Congruence from C07, for every hash of texts.  |
| C09 | operator+= and concat act on the native text | proved | `c09_concat` | Direct.  |
| C10 | generic_string is a faithful normal spelling | proved | `c10_generic` | Render/parse lemma.  |
| C11 | Stream output followed by stream input restores the path | proved | `c11_stream` | Induction on the text, writer and reader of `std::quoted`.  |
| C12 | Forward and backward iteration agree | proved | `c12_iterator` | Iterator positions as indices.  |
| C13 | lexically_normal produces the normal form | proved | `c13_normal` | Simulation of the loop by a stack machine; specification is a terminating, confluent rewriting of element lists.  |
| C14 | lexically_normal is idempotent | proved | `c14_idempotent` | From C13.  |
| C15 | lexically_normal does not change what the path denotes when there are no symlinks | proved | `c15_denotation` | Each rewriting step preserves resolution in an arbitrary world without links.  |
| C16 | lexically_relative inverts append | partial | `c16_relative_partial`, `c16_violated` | Common-prefix lemma; violated in general. False as stated: the base's trailing empty element and '..' are miscounted; c16_violated proves it, the partial theorem covers bases without '..' or a trailing separator after the common prefix. |
| C17 | lexically_proximate always returns something usable | proved | `c17_proximate`, `c17_unrelated` | From C16 lemmas.  |
| C18 | remove_filename and replace_filename touch only the filename | partial | `c18_remove_filename_partial`, `c18_violated` | Invariant over reachable values; witness for undefined behaviour. Undefined behaviour on the normal form of '../'; proved for all other reachable values. |
| C19 | replace_extension changes only the extension | partial | `c19_replace_extension_partial`, `c19_violated_alias` | Closed form of `replace_extension`; witness for aliasing. False for p.replace_extension(p); proved for a distinct argument. |
| C20 | No sequence of path operations has undefined behaviour or throws out_of_range | partial | `c20_no_fault_partial`, `c20_fault_partial`, `c20_violated` | Invariant by induction on all histories of operations over path variables. False: '../' normalised then remove_filename; eliding parent_path. Proved for all other histories. |
| C21 | Repeated parent_path terminates | partial | `c21_parent_terminates_partial`, `c21_violated` | The number of elements decreases. False with copy elision in parent_path for '///a/b'; proved without. |
| C22 | absolute() returns an absolute path denoting the same place | proved | `c22_absolute` | Execution lemma for `current_path`, then C06; resolution in worlds.  |
| C23 | error_code and throwing overloads agree | partial | `c23_overloads_agree_partial`, `c23_exceptional_partial`, `c23_same_effects_partial`, `c23_status`, `c23_violated` | Relational proof `Rel` between the two overloads, for every operating system. All operations and OS answers, except canonical, weakly_canonical, proximate, relative (false if getcwd fails: c23_violated) and create_directories; those under the stated OS assumptions. |
| C24 | error_code overloads never throw filesystem_error | partial | `c24_no_throw_partial`, `c24_exceptional_partial`, `c24_status`, `c24_violated` | `NoThrow` over program trees. False for proximate(p,ec), relative(p,ec) and create_directories(p,ec): c24_violated. All other operations and OS answers proved. |
| C25 | copy_file never touches an existing destination unless told to | proved | `c25_copy_file`, `c25_touched` | Case analysis over all executions.  |
| C26 | copy_file copies the bytes | partial | `c26_copy_file_partial`, `c26_violated` | Kernel with two open files; invariant over all schedules of partial results. False: short writes are ignored, and with sendfile a source whose reported size is wrong (0 in /proc) is copied incompletely, both with result true. Proved: exact copy for every schedule of partial sendfile/read results and fallbacks if writes are complete and the size is right. |
| C27 | The data-copy loops terminate | partial | `c27_terminates_partial`, `c27_violated` | Measure on the rest of the source; a non-terminating execution. False: sendfile answering 0 for a source truncated after lstat is repeated for ever. Proved: termination within source length + 1 rounds if the source is at least as long as reported. |
| C28 | create_directories establishes the directory chain | partial | `c28_chain_partial`, `c28_again_partial`, `c28_succeeds_partial`, `c28_violated`, `c28_elided_violated` | File system as a set of names; induction on the list of prefixes. False as stated: a trailing slash makes it do nothing, an existing regular file is taken for a directory without an error, and a dangling link gives true although nothing was created (c28_violated). With a compiler that elides the copy in parent_path (clang), create_directories('//a/b') never ends and '///a/b' throws std::out_of_range (c28_elided_violated). Proved for paths ending in a name, without other processes and dangling links (prefixes that contain .. may turn out to be files once a directory before the .. was made), and under elision for paths beginning with no more slashes than the first name has characters. |
| C29 | create_directory creates one directory or reports why not | partial | `c29_create_directory_partial`, `c29_violated` | All executions. False: an existing regular file gives false without error. Proved: one mkdir, true iff it succeeded, false without error iff EEXIST, every other error reported. |
| C30 | remove_all removes exactly the subtree and counts it | proved | `c30_remove_all`, `removing_total` | Weakest preconditions over a kernel with a tree and directory streams; induction on the tree. For every tree, by a kernel with a tree at p and directory streams: lstat, opendir, readdir, remove as specified, every other call arbitrary. The count is modulo 2^64. p is named so that the last component is not resolved through a link: 'link/' is outside the kernel assumption. |
| C31 | remove_all reports failure truthfully under interference | partial | `c31_partial`, `c31_violated`, `c31_empty` | As C30 with arbitrary answers. False: a file vanishing during the walk makes remove_all return 0 or 2^64-1 without an error (c31_violated). Proved for every execution in which no call answers ENOENT; reported errors are always answers of some call. |
| C32 | remove deletes at most one entry and says so | proved | `c32_remove` | All executions. At the level of system calls: for every OS behaviour. |
| C33 | permissions() computes the requested mode | proved | `c33_permissions`, `c33_options` | All executions; bit-vector lemmas. c33_options: none or several of replace, add and remove fail an assertion before any call.  |
| C34 | Every named permission bit can be set and observed | partial | `c34_permission_bits_partial`, `c34_violated` | Bit vectors. False: set_gid and sticky_bit are 0 (octal typo), so these two bits can never be requested or reported; the other bits proved. |
| C35 | space() reports exact byte counts | partial | `c35_space_partial`, `c35_violated` | Bit-vector arithmetic. False: a count of zero blocks (a full file system) is reported as uintmax_t(-1) bytes. Proved: exact values for all non-zero counts, saturation exactly when the product does not fit, error reporting. |
| C36 | last_write_time set/get round trip | proved | `c36_last_write_time` | Integer arithmetic, all executions.  |
| C37 | Reading file times never overflows | partial | `c37_exact_partial`, `c37_violated` | Integer arithmetic; overflow is a distinct outcome. False: a time stamp outside the range of file_time_type is signed overflow (undefined behaviour) instead of value_too_large. Proved: exact and free of overflow for every representable time stamp. |
| C38 | status classification | proved | `c38_status`, `c38_predicates`, `c38_path_predicates` | All executions.  |
| C39 | equivalent is an equivalence relation on existing files | proved | `c39_equivalent` | Machine in a fixed state.  |
| C40 | temp_directory_path returns a directory | proved | `c40_temp_directory_path` | All executions.  |
| C41 | weakly_canonical canonicalises the existing prefix or reports an error | partial | `c41_weakly_canonical_partial`, `c41_violated` | Machine in a fixed state, induction on the elements. False: if the existing prefix cannot be resolved the result is the empty path without error. Proved: the result when the prefix resolves. |
| C42 | Directory iteration lists exactly the entries | proved | `c42_directory_iterator` | Induction on the entries read, all executions.  |
| C43 | Recursive iteration visits the whole tree once | partial | `c43_visits_partial`, `c43_violated`, `c43_unknown_type` | Weakest preconditions over an unchanging tree; induction on histories and trees. Violated: a directory read after a symbolic link in the same listing is not entered, and DT_UNKNOWN entries end the walk with ENOENT; both proved with witnesses. c43_visits_partial proves the claim for every other tree (any depth and width), with termination and all handles closed. c46_session gives the exact walk on all trees. |
| C44 | follow_directory_symlink also enters linked directories | partial | `c44_flat_partial`, `c44_violated` | All executions make one `opendir`; weakest preconditions for what is seen. Violated by every execution: with follow_directory_symlink no directory but the root is ever opened. Proved: every history then sees exactly the entries of the root directory, as if the directories below were empty. |
| C45 | skip_permission_denied | proved | `c45_skip`, `c45_report`, `c42_directory_iterator` | From the session theorem of C46. For every unchanging tree and every history. c45_report needs no skip option: it covers every error left in the listing; without the option every refused directory is one. Options without follow_directory_symlink (with it no directory but the root is opened, c44_violated). |
| C46 | depth, pop and disable_recursion_pending | proved | `c46_session`, `c44_flat_partial` | Iterator as position in a depth-first listing; induction on histories. All histories of increment, pop and disable_recursion_pending over all trees, against a listing with positions. pop keeps the pending flag, as the specification function says. c44_flat_partial is the same for iterators with follow_directory_symlink. Assumes names are names, readdir never reports EACCES. |
| C47 | Directory handles are neither leaked nor used after close | partial | `c47_recursive`, `c47_directory`, `c47_shared_partial`, `c47_violated` | Handle table as abstract state; induction on histories of clients. Single-owner iterators, throwing and error_code forms: no leak, no double close, no read of a closed or null handle. Any number of copies, assignments, moves (error_code forms): no leak, no double close, no read of a closed handle; a null stream is read only by clients incrementing a stale copy, which c47_violated shows happens. |
| C48 | directory_entry observers agree with the free functions | partial | `c48_refreshed_partial`, `c48_constructed_partial`, `c48_iterated_partial`, `c48_violated`, `c48_violated_exists`, `c48_violated_is`, `c48_violated_missing`, `c48_violated_symlink`, `c48_violated_links`, `c48_violated_size`, `c48_violated_status`, `c48_violated_iterated`, `c48_refresh_fails`, `c48_late_size`, `c48_violated_dangling` | Cache state machine against a file at rest; induction on histories of questions. False of the code in many ways, each proved for all files: exists(ec) and the type predicates with an error_code are always false, exists() throws for missing files, is_symlink() is false for links, hard_link_count() is -1, file_size() of a directory is -1 without error, status() lacks the permissions, an iterated dangling link makes exists() throw (c48_violated_dangling), and all but the type predicates fail an assertion on entries just obtained by iteration. The partial theorems: for every history of observers on an existing file, exists() and type predicates without error_code, is_symlink of non-links, file_size of regular files and last_write_time agree with the free functions. |
| C49 | copy dispatches on the source type and options | proved | `c49_copy`, `c49_quiet` | All executions against a decision table. The whole decision of copy for every option set, file type and OS answer, with the calls of each action; c49_quiet: nothing modified in rejected or skip cases. Assumes answered inode numbers are not 0 and names in listings are names. A symbolic link is copied also with create_symlinks alone, and a directory is copied with all contents without the recursive option; the specification says so. |
| C50 | Recursive copy reproduces the tree | partial | `c50_copy_partial`, `copying_total`, `c50_violated` | Weakest preconditions over a disk with two trees; induction on the tree. For every tree of directories, files (with contents) and, with copy_symlinks, links, with failures of any call and partial reads. False when the destination is inside the source: copy then makes directories without end (c50_violated). Assumes writes are full (c26_violated) and listings do not break off (c51_violated). |
| C51 | copy reports errors met while listing the source directory | partial | `c51_first_partial`, `c51_violated` | All executions; witness. False: an error of any reading after the first entry is lost and success is reported (c51_violated). Proved: errors of opening the directory and of reading up to its first entry are reported. |
| C52 | filesystem_error carries the paths of the failing call | partial | `c52_paths_partial`, `c52_status_paths`, `c52_copy_file_swapped`, `c52_others`, `c52_copy_partial`, `c52_relative_partial`, `c52_what_partial`, `c52_violated` | `Thr`: all exceptions a program tree can throw. Exact paths for all operations except copy, copy_file, copy_symlink, absolute, canonical and their callers, for which the paths they do carry are stated; copy_file exchanges the paths; what() omits the first of two paths (c52_violated). |
| C53 | Option types are bit masks | partial | `c53_operators`, `c53_laws`, `c53_flags_partial`, `c53_violated` | Bit vectors. False for two perms constants with value 0; all operators and the flags of the other enums proved. |
| C54 | is_empty and file_size | proved | `c54_file_size`, `c54_is_empty` | All executions.  |
| C55 | Simple mutators issue exactly the intended system call | proved | `c55_one_call`, `c55_read_symlink`, `c55_resize_too_large` | All executions.  |
| C56 | File descriptors are closed exactly once | proved | `c56_descriptors` | Descriptor table along the trace.  |
| C57 | Windows path grammar: root names and directories | partial | `c57_parse`, `c57_decompose`, `c57_partition_partial`, `c57_append`, `c57_equal`, `c57_rejoin_partial`, `c57_reparse`, `c57_violated`, `c57_preferred_partial`, `c57_violated_preferred` | Closed form of the Windows scan against a grammar on texts. every text: parsing total, elements, root name/directory/path, relative path, filename, is_absolute, append, equality are the specified functions of the text. Partition and root_path()/relative_path()==p hold unless the relative part looks like a drive (C:D:x) or the path is a bare //host; c57_violated shows those cases fail. make_preferred keeps the elements unless the text begins with a mixed pair of slashes (c57_violated_preferred). |
| C58 | Windows time conversion round trip | partial | `c58_from`, `c58_to_partial`, `c58_round_trip_partial`, `c58_violated` | Integer arithmetic with explicit overflow. Reading a FILETIME is proved for all 2^64 values (floor to the second, overflow exactly when the second is not representable), for any clock period. Writing and the round trip are proved from 1970 to 2^63 ns later; c58_violated: times before 1970 are rejected though after 1601, and both directions overflow within the range of file_time_type on MSVC. |
| C59 | Windows permission mapping is monotone | partial | `c59_exact`, `c59_partial`, `c59_readOnly`, `c59_map`, `c59_map_oob`, `c59_flagTest`, `c59_violated`, `c59_map_bounds`, `c59_failure` | Bit vectors against a model of access checks. Under the stated model of the Windows access check, c59_exact says for every permission set exactly when reading back gives what was set; c59_partial is the nested case; c59_violated gives sets for which it does not. |
| C60 | canonical's symlink expansion terminates | partial | `c60_throwing`, `c60_terminates`, `c60_cycle_reported`, `c60_error_code_partial`, `c60_result_partial`, `c60_violated`, `c60_dot` | Programs over link tables; measure; an endless execution. Throwing form: at most 40 links, the 40th throws too_many_symbolic_link_levels, no undefined operation, terminates (all file system answers). Error code form: only while fewer than 40 links are read; c60_violated: with a link C:\\a -> a\\..\\a it never returns. Result free of '.', '..' and links when names have no colon and links are not drive-relative. do_absolute is not part of the model of this function; it is in C105. |
| C61 | remove_all acts only under p, also under interference | proved | `c61_within` | Trace invariant by induction on the fuel. Assumes names in listings are names (non-empty, no slash). |
| C62 | copy_symlink makes a link with the same text | partial | `c62_copy_symlink_partial`, `c62_violated` | All executions. Every execution; the text is kept unless it consists of several slashes ('//' becomes '/', c62_violated). Assumes PATH_MAX > 0 and that the text fits. |
| C63 | The file copy_file replaces is the file it examined | partial | `c63_recheck_partial`, `c63_violated` | Trace property. Nothing is altered before the destination name was examined again and found the same; but the second look is at the name, not the descriptor, so an exchange in between is not noticed (c63_violated). |
| C64 | copy_file copies through symbolic links | partial | `c64_copies_partial`, `c64_violated` | Kernel whose files may be exchanged by others. False for links: a source link is refused and a destination link gives EBADF (c64_violated). Proved for names that are not links. |
| C65 | Windows: status and symlink_status tell the truth | proved | `c65_status`, `c65_symlink_status`, `c65_exists`, `c65_is_directory`, `c65_is_symlink` | Weakest preconditions over an abstract disk. Every execution against an abstract unchanging disk (WinLaw); with a system that fails only where there is nothing, the exact type. If the tag of a reparse point cannot be read, symlink_status gives reparse_file with the error. |
| C66 | Windows: equivalent is identity of files | proved | `c66_equivalent`, `c66_relation` | Weakest preconditions over an abstract disk. Every execution against an abstract unchanging disk on which volume and index identify a file. |
| C67 | Windows: file_size and hard_link_count are those of the file | partial | `c67_file_size_partial`, `c67_file_size_of_link`, `c67_violated`, `c67_hard_link_count` | Weakest preconditions over an abstract disk. file_size does not follow links: of a link to a file it is the size of the link itself (c67_violated). Exact for other paths; hard_link_count is exact for all. |
| C68 | Windows: last_write_time reads what was set | partial | `c68_round_trip_partial`, `c68_read` | Kernel of file times; integer arithmetic. For times from 1970 on whose nanoseconds fit 63 bits; others are refused or overflow (C58). |
| C69 | Windows: read_symlink returns the target of the link | partial | `c69_read_symlink_partial`, `c69_violated` | All executions, all buffers. Exact for symbolic links; the text of a mount point (junction) is read two characters too far (c69_violated). |
| C70 | Windows: remove deletes at most the named entry | partial | `c70_remove_partial`, `c70_calls`, `c70_violated` | Kernel of directory slots; all executions. True without interference; a file vanishing between the two calls counts as removed, and a missing parent is an error (c70_violated). |
| C71 | Windows: create_directory tells whether it created | partial | `c71_create_directory_partial`, `c71_template_partial`, `c71_violated` | Kernel of directory slots; all executions. An existing file is taken for a directory; the form with a template always returns true (c71_violated). |
| C72 | Windows: single-call mutators do what they are asked and report the call's error | partial | `c72_one_call`, `c72_rename_partial`, `c72_violated`, `c72_resize_file` | All executions; kernel of sizes. rename reports GetLastError() after a failure of the C library and fails an assertion if that is 0 (c72_violated). |
| C73 | Windows: looking changes nothing | proved | `c73_observers`, `c73_entry`, `c73_iterators` | Trace property, structural induction on programs. Every execution, both overloads, no assumption on the system. |
| C74 | Windows: copy_file copies exactly when asked | partial | `c74_copy_file_partial`, `c74_violated_update`, `c74_violated_equal`, `c74_violated_same` | Weakest preconditions over an abstract disk with a log of the changing calls. Proved of every execution over an unchanging disk, with 'newer' meaning: the destination's time in whole seconds is not later than the source's. False as documented: a destination newer within the same second, or of equal time, is replaced (c74_violated_update, c74_violated_equal); an error of equivalent is ignored and a file copied onto itself (c74_violated_same). Fault (overflow of the time) possible with update_existing only. |
| C75 | Windows: every file handle is closed exactly once | proved | `c75_observers`, `c75_modifiers`, `c75_entry` | Ghost state of open handles; invariant over all executions. Every execution, both overloads; assumes that the system does not give out an open handle again. Handles of FindFirstFileW are the subject of C77. |
| C76 | Windows: the two overloads agree, the one with an error_code does not throw | partial | `c76_overloads_agree_partial`, `c76_same_effects_partial`, `c76_no_throw_partial`, `c76_status`, `c76_violated_status`, `c76_violated_space` | Simulation relation between the two overloads, by structural induction on programs (recursion depth and loops included). Every operation except status, symlink_status, exists, is_directory, is_symlink (their throwing forms do not throw when the file cannot be examined: c76_violated_status; what they return agrees, c76_status) and space (with an error_code it throws if the working directory cannot be read: c76_violated_space). |
| C77 | Windows: every search handle is closed exactly once | proved | `c77_recursive`, `c77_directory`, `c77_operations` | Ghost state of open search handles; invariant over all executions, by induction on the recursion depth and the loops. Every execution, both overloads, any set of handles already open; an iterator has one owner. Assumes that the system does not give out an open handle again. An execution that ends in undefined behaviour is only shown not to have misused a handle before. |
| C78 | Windows: directory_iterator lists every entry once, in order, or reports the error | partial | `c78_listing_partial`, `c78_violated` | All executions, by induction on the loops over entries. Every execution for every directory text: what is seen and what is reported. Violated: if only . and .. are found the error of the search is replaced by the last error after FindClose; an empty root directory is an error; the empty path lists the root of the current drive. Names are read as any text; the path shown is checked by its elements. |
| C79 | Windows: recursive_directory_iterator visits a tree depth first | partial | `c79_session`, `c79_visits_partial`, `c79_violated`, `c79_violated_junction`, `c79_violated_follow` | Refinement: an invariant relates the stack of streams and the open searches to a position in the listing; induction on the tree and on the history. Endless walk: induction on the number of increments. Every history over every tree is described exactly (c79_session); the depth-first listing holds for trees without directory links and without a link before a directory. Violated: a directory after a link is not entered; junctions are entered without the option, and a junction to its own directory makes the walk endless (for every m); with follow_directory_symlink nothing is entered. Assumes an unchanging tree and that FindClose leaves the last error alone. |
| C80 | Windows: a directory_entry agrees with the free functions on its path | partial | `c80_hard_link_count_partial`, `c80_status_partial`, `c80_status_perms`, `c80_type_partial`, `c80_is_symlink_partial`, `c80_violated_size`, `c80_violated_time`, `c80_violated_gone`, `c80_violated_symlink_status`, `c80_violated_status`, `c80_violated_code`, `c80_violated_follow`, `c80_violated_is_symlink`, `c80_violated_construct`, `c80_made_directory_partial`, `c80_made_link_partial`, `c80_violated_construct_link`, `c80_late_directory_partial`, `c80_late_violated`, `c80_refresh_anew` | Weakest preconditions over the law of the Windows calls, for every cache as read from a directory; the violations hold for every execution. Holds for hard_link_count, for type and permissions of status, and without a code for the predicates, for entries that are no reparse points; is_symlink for all but directories. Violated (each for every execution, not only a witness): file_size is -1 with a clear code; last_write_time is an error; symlink_status has no permissions; status of a link is of the link; with a code exists and is_* are false; without one a link to a file is not a regular file; a directory link is not a link; status of a vanished file fails an assertion; directory_entry(p) of a plain file or of a directory link fails. Entries made for directories and for links to files: c80_made_directory_partial, c80_made_link_partial (type, size and time are not those of the goal). Entries made before their file exists and asked later: c80_late_directory_partial; for a plain file every question with a code but the predicates fails an assertion (c80_late_violated). |
| C81 | Windows: remove_all never leaves the tree nor follows a link | proved | `c81_within` | Decomposition of all executions by induction on depth and number of entries; the spec is an inductive predicate on traces, closed under appending. For every trace with listed names being names. WinWithin admits a listing of x only directly after getAttrs and getPerms of x answering directory and no reparse point. |
| C82 | Windows: remove_all reports truthfully | partial | `c82_partial`, `c82_violated` | The same induction carries the count and the source of errors. Holds if no call answered that a file is missing. Violated otherwise: a file vanishing before it is examined gives 0 without error though p remains; vanishing before removal gives -1 without error; vanishing while being removed counts; a missing parent directory (3) is an error instead of 0. |
| C83 | Windows: create_directories makes the missing prefixes, shortest first | partial | `c83_chain_partial`, `c83_succeeds_partial`, `c83_violated` | A weakest-precondition rule for each loop over a state of disk, handles and directories made; the first loop by `win_parent_any`, the second by induction on the list. Proved for paths of plain names that do not end with a separator, if no other process interferes and no link leads nowhere. Violated: with a separator at the end nothing is done and there is no error; an existing regular file is no error; ERROR_ALREADY_EXISTS counts as created. |
| C84 | Windows: permissions requests exactly the mode asked for, once | proved | `c84_permissions`, `c84_options` | Decomposition of all executions; the mode found is tied to an answer in the trace. nofollow makes no difference to the request (SetPermissions ignores it), only the file examined is the link itself. A system that answers the value perms::unknown makes an assertion fail. |
| C85 | Windows: absolute is absolute | partial | `c85_absolute_partial`, `c85_violated` | Decomposition of all executions; the elements of the result by the theorem on Windows `operator/`. Absolute if the working directory has a root name and a root directory and p names no other drive. Violated: D:foo with a working directory on C: stays as it is; a working directory that grows between the two calls is undefined behaviour. |
| C86 | Windows: space gives the numbers of the volume of p | partial | `c86_space_partial`, `c86_violated` | Decomposition of all executions; `remove_filename` on Windows for all texts. Exact for absolute paths, but the directory that contains p is asked about. Violated: 0 becomes -1; the values of a mounted volume are those of the volume around it; an exception is thrown if the working directory cannot be found. |
| C87 | Windows: temp_directory_path gives a directory | partial | `c87_temp_partial`, `c87_violated` | The rule for `status` on Windows. Holds except when the text does not fit the buffer: then an assertion fails. |
| C88 | Copies of an iterator share its position, not its recursion flag | proved | `c88_copies`, `c88_copy`, `c88_sole`, `c88_sole_dir` | Equality of programs (refinement between the two models of iterators); a frame predicate on heaps for the copies. error_code forms. c88_sole is an equality of programs between the model with a heap and the model of one iterator. |
| C89 | Paths on Windows are totally ordered by their elements and equal paths hash equally | proved | `c89_compare`, `c89_texts`, `c89_total_order`, `c89_hash` | Sign of compare against the lexicographic order on texts; order laws from a strict total order. Elements as created, see C90. |
| C90 | Moving a path on Windows preserves it and its elements | partial | `c90_reparse_partial`, `c90_violated` | Parsing the normalized text, by the closed form of the scan. Elements with a colon as second character change when moved (c90_violated). |
| C91 | Generic spelling and stream round trip on Windows | proved | `c91_generic`, `c91_stream` | Closed form of the generic string, parsed back by the grammar; induction on quoting. Narrow streams. |
| C92 | parent_path, remove_filename and replace_filename on Windows | partial | `c92_parent_partial`, `c92_remove`, `c92_violated` | Grammar of the text before the filename. parent_path: names without colon, or the result is not moved; c92_violated for a name that ends with a colon. |
| C93 | stem, extension and replace_extension on Windows | proved | `c93_stem_extension`, `c93_replace_extension` | Position of the last dot; the grammar of the text with another ending. stem and extension are stated for their texts. A replacement aliasing an element of the path itself is C19. |
| C94 | lexically_normal on Windows yields the normal form | partial | `c94_normal_partial`, `c94_idempotent_partial`, `c94_denotation_partial`, `c94_violated` | Simulation of the loop by the stack machine of C13, whose runs are the rewriting relation; texts of its states parsed by the grammar. Names without a colon; c94_violated for the others. |
| C95 | lexically_relative and lexically_proximate on Windows lead back to the path | partial | `c95_relative_partial`, `c95_inverts_partial`, `c95_proximate_partial`, `c95_violated` | Closed form of the common prefix and the appended elements; the machine of C94 run on base / result. Names without a colon. The inversion excludes bases with a trailing separator or .. after the common elements and network names without root directory, for which it is false (c95_violated). |
| C96 | Windows: is_empty tells whether a file or directory is empty | partial | `c96_is_empty_partial`, `c96_violated` | Case analysis of the executions, using those of opening a search (C78). All executions. Missing, because false (c96_violated): an error of the search is not lost, and links are followed. |
| C97 | Windows: copy does what source, destination and options call for | proved | `c97_copy`, `c97_quiet` | Weakest preconditions of the looks over the Windows disk; case analysis of the dispatch; induction on the listing. All paths, options and executions in which listed names have no separator; the disk (which file a name leads to, its kind) answers the looks as Win/World.lean says, every other call is arbitrary. What is done is given by calls and by the single operations (copy_symlink; copy_file, see C74). |
| C98 | Windows: copy reports errors in listing the directory to be copied | partial | `c98_first_partial`, `c98_violated`, `c98_violated_empty` | Corollary of C97; concrete executions for the violations. Proved for the start of the listing. False for the rest: an error met after an entry has been copied is lost, and a directory without entries gives the error left when the search was closed. |
| C99 | Windows: remove_all removes exactly the subtree and counts it | proved | `c99_remove_all`, `Win.winRemoving_total` | Weakest preconditions over the table of searches; induction on the levels and, within one directory, on the rounds; different names lead to different paths and search texts. Every tree in which names have no separator or colon. The rest of the system is arbitrary; the laws used are those of the calls remove_all makes to files of the tree, and they can be met in every state (winRemoving_total). A directory can only be removed when it is empty and no search of it is under way, a file only when it is not open: that the searches and handles are closed in time is part of the proof. |
| C100 | Windows: a recursive copy reproduces the tree | partial | `c100_copy_partial`, `c100_violated`, `Win.winCopying_total`, `Win.winNesting_total` | As C50, on Windows: weakest preconditions over the table of searches, induction on the levels and, within one directory, on the rounds. The counterexample needs no bound: every number of levels runs out. c100_copy_partial: every tree of directories and files whose names have no separator or colon, every options value that asks for a full copy; any call may fail, except that a search does not break off. Missing: links and other reparse points; searches that break off, because copy then reports success (c98_violated); to inside from, because copy then makes directories without end (c100_violated). The laws can be met in every state (winCopying_total, when source and destination are apart). |
| C101 | Windows: copy_symlink copies the link | partial | `c101_copy_symlink_partial`, `c101_violated`, `c101_violated_dangling` | The executions of read_symlink (C69) and of status (C65) put together. c101_copy_symlink_partial: one call at the end makes the link with the text read; the kind is that of what the text leads to from the working directory. Missing, because false: a relative text looked up from the working directory gives the wrong kind (c101_violated); a link that leads nowhere is refused (c101_violated_dangling); mount points (c69_violated). Texts without names are not covered. |
| C102 | Windows: the security calls of GetPermissions and SetPermissions | partial | `c102_memory`, `c102_store`, `c102_fetch`, `c102_readback`, `c102_violated` | Weakest preconditions for the memory held and for the trace without memory calls; a law with the access list of the file for reading back. c102_memory: no memory is used or freed that is not held, and all is freed, for any answers. c102_store and c102_fetch: all runs, call by call. c102_readback: with C59's access check, what is read after setting is readBack, of which c59_exact says when it is what was set. Missing, because false: GetPermissions reports the last error instead of the error returned, fails an assertion if there is none, and takes a file in use for no error (c102_violated). |
| C103 | Windows: library calls with the security calls spelled out | partial | `c103_replay`, `c103_law`, `c103_status`, `c103_exists`, `c103_violated` | Induction on the library call; each piece of trace is put together by C102. c103_replay: for any answers each run is a run with single calls, or an assertion fails in GetPermissions or SetPermissions for want of a last error. c103_law: if failing security calls set the last error no assertion fails and theorems under WinLaw carry over, as done for status and exists. Missing, because false: without that (it is not documented) status says not_found of an existing file (c103_violated). |
| C104 | Windows: canonical names the place a path leads to | partial | `c104_leads_partial`, `c104_straight_partial`, `c104_found_partial`, `c104_same_partial`, `c104_violated` | Invariant of the loop: the place of the result and the components left lead where the path leads; induction on the rounds and on the relation. The place a path leads to is defined by an inductive relation (Spec.Leads), shown to be single-valued. Missing: names with a colon, links relative to the directory of a drive, and in the error code form 40 links or more (C60); because false: a link with a root directory but no root name loses the drive it is on (c104_violated). |
| C105 | Windows: canonical with all its calls | partial | `c105_resolves_partial`, `c105_canonical_partial`, `c105_absolute`, `c105_violated` | A run with all calls is replayed as a run of C104 whose single calls are answered as the disk answers them; the replay is an induction on the program. canonical with do_absolute, is_directory, is_symlink, exists and read_symlink down to their Windows calls, on a disk described by Spec.WinDisk. c105_resolves_partial is for both forms, after do_absolute; c105_canonical_partial for the error code form of an absolute path; both say that the result is absolute; c105_absolute: every run is a run of absolute followed by such a run. Missing as in C104: names with a colon, links relative to the directory of a drive, 40 links or more; mount points (C69); more rounds than n. Because false: the error reported is always ENOENT, and an error of the current directory is replaced by it (c105_violated). |
| C106 | copy_file on macOS: fcopyfile | partial | `c106_copies_partial`, `c106_violated`, `c106_refines`, `c106_touched`, `c106_state` | A ghost file with two offsets, and a simulation: events are mapped to the events of the other variant, program by program. fcopyfile may fail after any number of bytes (Spec.appleStep). c106_copies_partial: with true returned and fcopyfile having succeeded or failed without moving an offset, the destination holds the bytes of the source. Because false: when fcopyfile fails on the way the loop goes on from where the offsets are, and bytes are missing although true is returned (c106_violated). c106_refines: every run, seen without the calls of fcopyfile, is a run of the function with the read and write loop, so what holds for all runs of it holds here; c106_touched is C25 so obtained. c106_state is in full. |
| C107 | last_write_time with utime | partial | `c107_utime_partial`, `c107_violated`, `c107_unsupported` | All runs are enumerated; the reading back uses the exactness of the time conversion (C31). Because false: fractions of a second are lost, and times less than a second before the epoch are not rejected but set the epoch (c107_violated). c107_unsupported: with neither utimensat nor utime. |
| C108 | permissions without AT_SYMLINK_NOFOLLOW | proved | `c108_permissions`, `c108_options` | All runs are enumerated, with bit lemmas for the modes. As C33. The mode is described by Spec.newMode, shared with C33. |
| C109 | Functions declared noexcept let no exception out | partial | `c109_posix`, `c109_windows_partial`, `c109_violated`, `c109_space`, `c109_destructors` | A predicate on program trees, closed under sequencing and destructors, is shown of each function. In full on POSIX systems and for the destructors. Because false on Windows for space, where the exception of absolute escapes if the working directory cannot be read (c109_violated), and in no other way (c109_space); all others in full (c109_windows_partial). Running out of memory and the conversion of encodings are not modelled. |
| C110 | copy acts only at the source and the destination | proved | `c110_copy`, `c110_keeps` | A predicate on program trees that allows each call in view of the calls before it; induction on the levels and, within one directory, on the rounds. For every execution of both overloads, also the unfinished. Places are texts of paths: what a symbolic link at such a place leads to is with the operating system. |
| C111 | Windows: copy acts only at the source and the destination | proved | `c111_copy` | As C110, on Windows; the targets of links are found again in the calls before. For every execution of both overloads, also the unfinished. Places are texts of paths: what a link at such a place leads to is with the operating system. |
| C112 | Windows: filesystem_error carries the paths of the failing call | partial | `c112_paths_partial`, `c112_others`, `c112_violated` | A predicate on program trees, followed through each program by a tactic. All operations but copy, copy_file, copy_symlink, absolute and space, for which the paths they do carry are stated (for copy see C111). Because false: copy_file exchanges its paths, space may name none (c112_violated). |
| C113 | Operations change only what their name says | proved | `c113_operations`, `c113_looking` | A table of changing calls per operation; a predicate on program trees, followed through each program by a tactic. What is changed by copy, remove_all and create_directories at which places is C110, C31 and C28. |
| C114 | No operation runs into undefined behaviour or a failed assertion | partial | `c114_operations_partial`, `c114_iterators`, `c114_entry_partial`, `c114_listed_violated`, `c114_violated` | A predicate on program trees with a condition on answers; invariants of iterators and of the accumulated paths. Under stated limits on the answers: PATH_MAX positive, texts of links not empty and not longer than the buffer, times within 64-bit nanoseconds; and for entries that have read their status themselves. Because false otherwise: assertions and undefined behaviour outside these limits (c114_violated), and for every entry met in a listing (c114_listed_violated). |
| C115 | weakly_canonical, proximate and relative on Windows | partial | `c115_exists`, `c115_missing_partial`, `c115_results`, `c115_results_cwd`, `c115_violated`, `c115_looking`, `c115_no_throw_partial`, `c115_no_throw_violated`, `c115_exceptions` | Induction over the elements with the texts of the prefixes as specification, C105 for the existing part, the normal form of C14 on Windows for the rest; exceptions and changes by predicates on program trees. Results on a disk described by Spec.WinDisk whose calls fail only where there is nothing; error code form, names without a colon, fewer than 40 links. Because false: an error while the existing part is resolved gives an empty path and no error (c115_violated); proximate(p, ec) and relative(p, ec) throw if the current directory is not known (c115_no_throw_violated). |
| C116 | Windows: operations change only what their name says | proved | `c116_operations`, `c116_handles` | A predicate on program trees listing the calls allowed; for handles, one that also sees the calls made before. The table Spec.WinOp.changes lists, per operation, the changing calls with their paths; for the deeper calls of copy and remove_all see C111 and C81. |
| C117 | Windows: no operation runs into undefined behaviour or a failed assertion | partial | `c117_operations_partial`, `c117_canonical_partial`, `c117_resolve_partial`, `c117_iterators`, `c117_entry_partial`, `c117_entry_violated`, `c117_violated` | As C114, with the invariants that paths are parsed texts or elements, that stacks of streams are not empty and that caches never lose information. Answers within Spec.WinSane. Because false: size or status asked with an error_code of an entry whose file has disappeared fail an assertion (c117_entry_violated); refresh of an ordinary file asserts a last error although no call failed, rename a last error although the C library sets errno, current_path reads an unfilled buffer when the directory is changed meanwhile, times from 1601 overflow a clock of nanoseconds (c117_violated). Paths are those any program can make (sturdy_reached). Missing: create_directories, canonical and its relatives compiled with copy elision, more than 2147483688 rounds of canonical. |
| C118 | Windows: no history of path operations runs into a fault | partial | `c118_no_fault_partial`, `c118_fault_partial`, `c118_violated` | Invariant by induction on all histories: the elements are a root, then names within the text, then at most one empty name. False: a normalised '..\' then remove_filename; parent_path with copy elision. Proved for all other histories. |
| C119 | Every character of a path comes from a given text, a separator or a dot | proved | `c119_characters`, `c119_no_nul` | Invariant by induction on all histories: a predicate on characters closed under each operation.  |
| C120 | POSIX: the operating system acts on the whole text of a path | partial | `c120_operations_partial`, `c120_entries_partial`, `c120_violated` | Two models: calls with whole texts and calls with texts cut at the first null character; the executions of each operation coincide, by induction on its program. Proved for all arguments without null characters, when the texts the system answers have none; results have none either. Missing because false (c120_violated): remove of the path a\0b removes the file a, without an error. |
| C121 | Every form of source gives the path of its characters | proved | `c121_source`, `c121_reads`, `c121_c_str` | Refinement of reading memory up to a terminator, by induction on the memory, with reads behind its end as a distinct outcome. For char; sources of other character types go through nowide, which is not in the repository. |
| C122 | Equal paths are interchangeable (POSIX) | partial | `c122_equal`, `c122_observers`, `c122_histories_partial`, `c122_violated` | Simulation: texts equal up to runs of slashes are preserved by every operation; induction on histories. In full for what equality means and for the observers. Histories: whenever both runs succeed, and they do unless a path from lexically_normal is given to remove_filename or replace_filename. Because false (c122_violated): .. made by normalising ../ equals .. but remove_filename of it is undefined; with copy elision in parent_path, relative_path of a path equal to /a throws. |
| C123 | canonical gives the resolved path (POSIX) | proved | `c123_canonical` | Evaluation in an unchanging file system; equal elements and single separators give equal texts. The answers of realpath are assumed to be as POSIX says: absolute, no . or .., single separators, resolving to themselves. |
| C124 | relative and proximate lead from the base to the path (POSIX) | partial | `c124_relative_partial`, `c124_existing_partial`, `c124_violated` | Evaluation, then the text of lexically_relative as a list of elements; induction along the way up. For all paths for which weakly_canonical gives absolute paths, the base without final separator; c124_existing_partial: this holds for all files that exist. Because false (c124_violated): relative of a new file's bare name is empty without an error; a base that does not exist yet and ends in a separator counts as one level too deep. The throwing overloads: by C23. |
| C125 | What an operation did is what the next one sees (POSIX) | proved | `c125_create_directory`, `c125_create_symlink`, `c125_copy_symlink`, `c125_create_hard_link`, `c125_resize_file`, `c125_permissions`, `c125_remove`, `c125_rename_general`, `c125_rename`, `c125_rename_proviso` | Refinement on a concrete file system: paths that lead somewhere still do when entries are added (induction along names and links), and when one goes, still do or end in ENOENT. The file system is the specification of Os/Kernel: one user who may do everything, at most 40 links, names and final separators as in that file. c125_rename: for names in the working directory without proviso; c125_rename_proviso: the proviso on directory parts is needed. |
| C126 | An exception says which operation failed | partial | `c126_posix_partial`, `c126_windows_partial`, `c126_others`, `c126_windows_others`, `c126_entry`, `c126_windows_entry`, `c126_permissions`, `c126_what`, `c126_violated` | Every exception of a program satisfies a predicate on its message, by following each program (Thr), for all answers. Proved for 25 operations on each platform. Violated for the others: status, exists and all predicates name file_stat, absolute names current_path, pop() of a recursive_directory_iterator names directory_iterator::pop(); copy, copy_symlink, is_empty, canonical and weakly_canonical may name a function they use (c126_others gives the names); the observers of directory_entry name internal functions (c126_entry, c126_windows_entry). |
| C127 | Windows: equal paths are interchangeable | proved | `c127_observers`, `c127_operations`, `c127_lexical` | Equal paths have the same element objects but for their positions, and the operations depend on these only; for += the parse of a stored text continued by another text is computed. For paths made from texts; a path that results from an operation is covered if it is re-parsed, which is so for /=, +=, replace_extension and copies. lexically_normal and lexically_relative give the very same object. |
| C128 | create_directories on a file system with links (POSIX) | partial | `c128_effect_partial`, `c128_succeeds`, `c128_violated` | The second loop is run on the file system of Os/Kernel: one round either finds, makes, meets a link that leads nowhere, or ends with an error; induction over the prefixes, with an invariant that relates the inodes and entries to those at the beginning. False as stated: a/../f with a missing and f a file gives true without an error, a link that leads nowhere gives true though nothing is made, and a file is accepted (c128_violated); with a trailing slash nothing is done (c28_violated). Proved for paths that end in a name: the effect for all file systems, with the proviso that a prefix which is not found afterwards is a link that leads nowhere; success for paths without . and .. whose prefixes are directories or nothing. The file system is the specification of Os/Kernel. |
| C129 | remove_all on a file system with links (POSIX) | partial | `c129_effect`, `c129_removes_partial`, `c129_missing`, `c129_violated` | The file system with directory streams is shown to obey the laws of C30 step by step (simulation): the tree of the laws is kept equal to what the inodes hold, every inode outside stays as it is, and a call that the laws do not know would be noticed in the final state. Paths outside are followed in both volumes at once. False as stated: remove_all('d/s/../../d') removes d/s, then does not find its own path any more, takes this for 'nothing there' and reports success with 0 files removed, while d and d/t are still there (c129_violated). Proved: the effect for all file systems; removal and count when the directory part of p does not lead through p itself (it is found also without the entry p). The file system is the specification of Os/Kernel with the directory streams of Os/KernelDir; its remove does not accept a path that ends in a separator or a dot. |
| C130 | A listing shows what is there (POSIX, file system with links) | proved | `c130_lists`, `c130_fails`, `c130_file`, `c130_tidy`, `c130_start` | The file system obeys the laws of directory streams of Dir/Kernel, so the client loop is followed by induction on the rest of the listing; the path of an entry is then resolved as the path of the directory and one more name. That directories stay in order is shown for each call. For the file system of Os/Kernel with the directory streams of Os/KernelDir, in which no call is refused for want of rights. Directories are required to be in order (names are names, none twice, something behind each); c130_tidy shows that every program keeps this, c130_start that an empty file system has it. The bounds of the loops of the model are 3 reads in a row (., .. and an entry or the end) and one round more than there are entries. |
| C131 | A recursive listing shows what is there (POSIX, file system with links) | partial | `c131_walk_partial`, `c131_violated` | The file system with its open streams is related to the readers of an unchanging tree of Props/DirB (for all programs whose calls change nothing), so that the exact walk of C46 applies; the tree is unfolded from the inodes to the bounded depth, and its items are the addresses from the starting inode, which are resolved one name at a time. Violated: a directory that comes after a symbolic link in a listing is not entered (c131_violated). Proved for all file systems of Os/Kernel: the walk ends without error, leaves everything as it is, and shows only what is there, nothing twice, with the right depth; it shows all of it if in no directory a link comes before a directory. That directories are in order is kept by every program (c130_tidy). |
| C132 | copy_file copies or changes nothing (POSIX, file system with links) | proved | `c132_copy_file`, `c132_copies` | The two loops are followed by induction on the rounds with the invariant that the destination holds what has been read so far; copy_file is then evaluated case by case, and the result described by the volume after open with one inode replaced, from which what each path sees is derived by the lemmas on path resolution of C125. For the file system of Os/Kernel with the open files of Os/KernelFile: no call is refused for want of rights or space but for inode numbers, write takes all it is given (for short writes see C26), and open with O_CREAT refuses a link that leads nowhere. Files are shorter than 2^63 bytes and the bound on the rounds of the loops is above the size of the source. Sizes are assumed to be the lengths of the contents, which copy_file keeps. |
| C133 | Windows: the operating system acts on the whole text of a path | partial | `c133_operations_partial`, `c133_resolve_partial`, `c133_entries_partial`, `c133_violated` | As C120, for the programs of the Windows branch; two lemmas carry the result over to programs in which status tests and the functions on permissions are replaced by the calls they make. Proved for all arguments without null characters, when the texts the system answers have none (in the print name of a reparse point, unpaired surrogates count as null characters); results have none either. Missing because false (c133_violated): remove of the path a\0b deletes the file a, without an error, and an iterator over it searches for a and not for what is in a directory. |
| C134 | copy copies a file, or makes the link asked for, or changes nothing, on a file system with links | proved | `c134_file`, `c134_copies`, `c134_as_copy_file`, `c134_same`, `c134_create_symlinks`, `c134_create_hard_links`, `c134_copy_symlinks`, `c134_passes`, `c134_links` | One lemma runs copy up to the choice of what to do, from the answers to the two status calls. The file case is then C132, and the link cases are C125, since those programs only make calls that the file system with open files passes on. On the file system of Os/KernelFile, for files shorter than 2^63 bytes and a loop bound above their length. Calls are refused as in C132. Directories as source are the subject of C50 and C51, not of this claim. |
| C135 | An operation that fails has changed nothing, and one that succeeds has made the change | partial | `c135_said_iff_done`, `c135_ports`, `c135_failed_partial`, `c135_windows_done_is_said`, `c135_windows_said_iff_done_partial`, `c135_windows_failed_partial`, `c135_violated`, `c135_windows_violated` | A predicate on programs: after a changing call that was not refused the program can only end by saying so (whatever the closing of handles answers), and without one it never says so. It is checked function by function and gives the equivalence for every execution. The operations that look make no changing call by C113 and C116. The counterexamples are executions. Proved for all operations that make one change, and for those that look, whatever the system answers; on Windows copy_file is among them. False for copy, copy_file (POSIX), create_directories and remove_all, which can fail halfway (c135_violated; for the failed copy the new file stays behind). On Windows the converse is false for remove and for create_directory with a template, which say true without a change (c135_windows_violated). c135_ports: the builds with utime and chmod. A call that the system refused is taken to have changed nothing. |
| C136 | No failure of a system call is passed over | partial | `c136_operations_partial`, `c136_status`, `c136_ports`, `c136_remove_all_partial`, `c136_weakly_canonical_partial`, `c136_violated`, `c136_close_violated` | A predicate on programs: once a call has failed, the program can only return a reported error, whatever the later calls answer. It is closed under sequencing and under the closing of handles, and is checked function by function. The counterexamples are executions. Proved for 30 operations, whatever the system answers, among them copy_file, remove, rename, permissions, canonical, equivalent, is_empty and the directory iterators (without skip_permission_denied; ++ of the recursive one without follow_directory_symlink). Proved also for status and the predicates (c136_status) and for the builds with fcopyfile, utime and chmod (c136_ports). remove_all fails or returns 0, weakly_canonical fails or returns the empty path. False for weakly_canonical, create_directories, copy, remove_all and ++ of a recursive_directory_iterator that follows links (c136_violated), and for the failures of close (c136_close_violated). Not counted: failures of sendfile and fcopyfile, after which the copy goes on with read and write. Missing: relative and proximate, and Windows. |
| C137 | An error that is reported is one that the system gave | proved | `c137_operations`, `c137_status`, `c137_entries`, `c137_own_occurs` | A predicate on programs that collects the errors given so far: a program may end only with an error among them, or with one of its own. It is closed under sequencing and under the closing of handles, and is checked function by function. For POSIX. Also for every call of a directory_entry, whatever its cache holds (c137_entries). The list of an operation's own errors is part of the statement (Spec.FsOp.own); all but two of them do occur without a call that gave them (c137_own_occurs). Windows is not covered. |

## Disagreements between the code and the properties

Each is proved by a theorem named `..._violated` or stated in the theorem given.

Paths
* `"../"` normalised, then `remove_filename()`: undefined behaviour (C18, C20).
* `p.replace_extension(p)` reads its argument after changing it (C19).
* `lexically_relative` counts the trailing empty element and `..` of the base as names (C16).
* `parent_path` with copy elision keeps offsets into the old text: a following `remove_filename` is undefined (`foo/bar`), a following
  `relative_path` or second `parent_path` throws `std::out_of_range` (`///a/b`) (C20, C21).
* Windows: `C:D:x`.relative_path() is another drive, `//host` gains a root directory when rejoined; `/\a` becomes a network name by `make_preferred` but its elements stay (C57).

Errors and exceptions
* `what()` shows only the second of two paths; `copy_file` reports source and destination exchanged (C52).
* `proximate(p, ec)`, `relative(p, ec)` and `create_directories(p, ec)` can throw (C24); `canonical(p, ec)` goes on with an empty path when `getcwd` fails (C23).

Operations
* `copy_file`: short writes are taken for complete ones, files whose size is reported as 0 are copied empty (C26); `sendfile` answering 0 loops for ever (C27);
  symbolic links are refused or give `EBADF` (C64); the destination is examined again by name, not by descriptor (C63).
* `copy`: copies directories recursively without the option and stops silently at read errors (C49, C51); into its own subdirectory it never ends (C50).
* `copy_symlink` changes the link text `//` to `/` (C62).
* With a compiler that elides the copy in `parent_path`, `create_directories("//a/b")` never ends and `create_directories("///a/b")` throws `std::out_of_range` (C28).
* `create_directories`: a trailing slash makes it do nothing; an existing file is taken for a directory; a dangling link gives true (C28). `create_directory` on a file: false without error (C29).
* `remove_all`: a file vanishing during the walk ends it with 0 or 2^64-1 and no error (C31).
* `perms::set_gid` and `perms::sticky_bit` are 0 (C34, C53). `space`: zero free blocks become 2^64-1 (C35). Time stamps outside `file_time_type` overflow (C37).
* `weakly_canonical` returns an empty path without error if the existing part cannot be resolved (C41).

Directories
* The recursive iterator does not enter a directory listed after a symbolic link, and stops with `ENOENT` at entries of unknown type (C43); with `follow_directory_symlink` it enters nothing (C44).
* A stale copy of an iterator reads a null stream (C47).
* `directory_entry`: `exists(ec)` and the predicates with `ec` are always false; an iterated dangling link makes `exists()` throw; and more (C48).

Windows
* Times before 1970 are rejected, both directions overflow within the range of `file_time_type` (C58).
* Permission sets do not read back unless nested, `MapAccessMaskToPerms` reads out of bounds (C59).
* `canonical(p, ec)` reports too many links and goes on; with `C:\a -> a\..\a` it never returns (C60).
* `file_size` of a link is the size of the link (C67). `read_symlink` of a junction is shifted by two characters (C69).
* `remove`: something that vanished meanwhile counts as removed; a missing parent directory is an error (C70).
* `create_directory` on a file: false without error; with a template always true (C71).
* `rename` reports `GetLastError()` instead of `errno`, and fails an assertion if that is 0 (C72).
* `copy_file` with `update_existing` compares whole seconds and replaces a destination of equal time or newer by less than a second; it copies a file onto itself if `equivalent` fails (C74).
* `status(p)`, `exists(p)` and the predicates never throw, also where `status(p, ec)` sets an error; `space(p, ec)` throws if the working directory cannot be read (C76).
* `directory_iterator`: an error met before the first entry is replaced by the last error after `FindClose`; an empty drive is an error; the empty path lists the root of the current drive (C78).
* `recursive_directory_iterator` enters junctions without `follow_directory_symlink`, so a junction to a directory above it makes the walk endless; with the option it enters nothing; a directory read after a link is not entered (C79).
* `directory_entry`: for an entry read from a directory that is not a link `file_size` is -1 with a clear code and `last_write_time` an error; `symlink_status` has no permissions; with an `error_code` `exists` and all `is_*` that follow links are `false`; `status` of a file that is gone fails an assertion; `directory_entry(p)` for a plain file reports an old error or fails an assertion, since the case `FILE_TYPE_DISK` lacks its `break`; a file listed after a link is said to be a link (C80).
* `remove_all` on Windows with other processes removing files: 0 without error though `p` is left, -1 without error, or a count with files it did not remove; and for a path whose parent does not exist an error instead of 0 (C82).
* `create_directories` on Windows: a path that ends with a separator does nothing, without error; a regular file in the way is no error; `ERROR_ALREADY_EXISTS` gives `true` (C83). `permissions` with `nofollow` sets the permissions of the target (C84).
* `absolute("D:foo")` on Windows is not absolute if the working directory is on another drive (C85). `space` on Windows asks about the containing directory, gives -1 for 0, and throws despite `ec` if the working directory cannot be found (C86). `temp_directory_path` may fail an assertion (C87).
* Moving an element re-parses it: the element `D:x` of `a\D:x\b` becomes a path with two elements (C90). `parent_path` of `x\y:\z\w` is `x\y:z` (C92).
* `lexically_normal("a\..\D:x")` on Windows is `D:x`, a file of another drive (C94). `lexically_relative` counts a trailing separator of the base as a directory, and `//h` relative to itself, appended to `//h`, is `//h\` (C95).
* `is_empty` on Windows does not follow links: a link to a file with contents is said to be empty. An error of `FindNextFileW` after `.` and `..` is lost, and the directory said to be empty; an empty root directory, which has neither, is an error (C96).
* `directory_entry(p)` on Windows, when `p` is a directory link or mount point, always reports `is_a_directory`; for a link to a file it keeps the size and the time of the link, and the type `reparse_file` (C80).
* `copy` of a directory on Windows: an error of `FindNextFileW` after the first entry is lost, the rest is not copied and success is reported; for an empty directory the error left by `FindClose` is reported (C98). A link to a file other than a symlink, or a destination that is a reparse point, is refused with `function_not_supported` (C97).
* `copy` on Windows into a directory of the source never ends (C100). `copy_symlink` on Windows looks at the text of the link from the working directory: the copy of a relative link to a directory may be a link to a file, or be refused; a link that leads nowhere is refused (C101).
* `GetPermissions` compares the value of `GetNamedSecurityInfoW` and of `GetEffectiveRightsFromAcl` with 0 but reports `GetLastError()`, which these functions are not documented to set: the error may be that of an earlier call, so `status` may say `not_found` of an existing file, or an assertion fails (C102, C103). The entry that denies the owner's rights is made with the kind of a group.
* On Windows `canonical` of `D:\k`, a link to `\x`, is `\x`: `is_absolute` is true of a path with a root directory and no root name, so the drive of the link is lost (C104).
* On Windows `canonical(p, ec)` of a relative path goes on with an empty path when `GetCurrentDirectoryW` fails, and reports `ENOENT` in place of that error (C105, cf. C23).
* On macOS `copy_file` goes on with the read and write loop after a failed `fcopyfile`, without going back to the start: it can return true with bytes missing (C106).
* With `utime`, `last_write_time(p, t)` rejects times before the epoch, but not those of the last second before it, which set the epoch (C107).
* On Windows `space(p, ec)` is declared `noexcept` but calls the throwing `absolute(p)`: if the working directory cannot be read the program is ended by `std::terminate` (C109).
* An entry met in a listing fails an assertion when asked for `file_size`, `hard_link_count`, `last_write_time`, `status` or `symlink_status`; `current_path` fails one where `PATH_MAX` is unlimited (`pathconf` answers -1), `read_symlink` for a link with empty text (C114).
* On Windows `weakly_canonical` returns an empty path without an error if the existing part cannot be resolved; `proximate(p, ec)` and `relative(p, ec)` throw if the current directory is not known (C115).
* On Windows `directory_entry::refresh` of an ordinary file asks for the last error although no call has failed, and asserts that it is not 0; `file_size(ec)` and `status(ec)` of an entry whose file has disappeared fail an assertion; `rename` asserts a last error although the C library reports in `errno`; with libstdc++ a time stamp of 1601 overflows (C117).
* On Windows too, `..\` normalised and then `remove_filename()` or `replace_filename()` is undefined behaviour; with copy elision so is `parent_path()` of `foo\bar` followed by `remove_filename()`, and `relative_path()` of the parent of `C:\\\\a\b` throws `std::out_of_range` (C118).
* A path with a null character is accepted everywhere and handed to the system up to that character: `remove("a\0b")` removes `a` and reports success (C120).
* The same on Windows; there an iterator over `a\0b` searches for `a` itself, because the `\*` appended to the text comes after the null character (C133).
* Equal paths can behave differently: the normal form of `../` equals `..`, but `remove_filename` of it is undefined (C122).
* `relative("new.txt")` for a file that does not exist yet is the empty path, without an error, because `weakly_canonical("new.txt")` is relative; `relative("/w/n/x", "/w/n/")` for a missing `/w/n` is `../x` (C124).
* The message of an exception of `status`, `symlink_status`, `exists` and the predicates is `in file_stat: …`, that of `symlink_status` on Windows `in IsReparsePointSymlink`, that of `absolute` `in current_path: …`, and that of `pop()` of a `recursive_directory_iterator` `in directory_iterator::pop(): …` (C126).
* `create_directories("a/../f")` makes `a`, finds the file `f` and returns true without an error (C128).
* `remove_all("d/s/../../d")` removes `d/s`, then no longer finds its own path, and returns 0 without an error although `d` and the rest of its entries are still there (C129): `ENOENT` met inside the walk is taken for "nothing at p" (`src/fs_ops.cpp:1331`).
* `copy_file` on POSIX that fails after opening the destination leaves a new, incomplete file behind, or an existing one emptied (C135); `remove` on Windows says `true` for a file that another process removed first (C135).
* `weakly_canonical` drops an error met while it looks for the part of the path that is there, and returns an empty path without an error (C136). `copy` takes a failure to read on in a directory for its end (C51, C136).
* `copy_file` does not look at the result of `close` on the new file: where the system reports a full disk only then, it reports success for an incomplete copy (C136).

## Not modelled

* Encoding conversions (`nowide`, `wstring`, `u8string` observers); on Windows a path and its wide text are identified.
* Memory exhaustion (`std::bad_alloc`) and `noexcept` termination caused by it.
* Threads inside one process. Other processes are covered where the operating system is arbitrary.
* `ASAP_ASSERT` is taken to be active; with it disabled the faults called `assertFail` become undefined behaviour.
* Windows: in `Win/Canonical` the library's own status functions are taken as calls; `Win/Whole` puts the functions in place of the calls (C105). `GetPermissions` and `SetPermissions` of
  `src/windows/permissions.cpp` are single calls in the operations; their bit computations are modelled in `Win/Perms`, their calls in `Win/Sec`,
  and C103 relates the two. `GetSecurityDescriptor` and `GetDaclFromDescriptor` are not used and not modelled.

* Windows: an element whose second character is a colon (`D:x` in `a\D:x\b`) is parsed as a path of its own when `std::vector` moves it.
  The model keeps elements as created, so for such texts the Windows theorems on elements hold only as long as the vector does not grow (C90).
## Tests of the theorems against wrong programs

`seeded/LOG.jsonl` has one line per attempt: the definition edited, the edit, the claim it breaks, the theorems that failed and the theorems
tightened because of it. 762 attempts so far; in 711 at least one theorem failed. The others are explained in their lines (edits that
do not change the behaviour, or a theorem that was then tightened and re-tested).
