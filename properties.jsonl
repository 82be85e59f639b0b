{"id": "C01", "title": "Parsing a string into path elements is total and follows the POSIX path grammar", "statement": "Constructing path(s) never has undefined behaviour, and iterating the result yields: \"/\" first iff s starts with '/'; then exactly the maximal runs of non-'/' characters of s in order; then one final empty element iff s ends in '/' and contains at least one non-'/' character. native() is s itself, except that a string made only of slashes is stored as \"/\".", "quantifier": "every character string s (any length, any bytes)", "why_tests_cant": "the set of strings is infinite and the grammar has interacting corner cases (repeated, leading, trailing separators); tests only list 18 strings", "anchors": ["src/fs_path.cpp: path::SplitComponents, path::Trim, path::AddRootDir, path::AddFilename", "include/filesystem/fs_path.h: path(string_type&&), path::native, path::begin, path::end"]}
{"id": "C02", "title": "A path is determined by its native string: re-parsing, copying and moving change nothing", "statement": "For every path p built from a string, path(p.native()) is indistinguishable from p through every observer, and copy construction, move construction, swap, and reallocation of the internal element array (which move-constructs every element) leave every observer unchanged; the moved-from path is empty.", "quantifier": "every string-built path", "why_tests_cant": "move construction re-parses the text of every element, so harmlessness is a statement about all element texts", "anchors": ["include/filesystem/fs_path.h: path(path&&), path::swap, path::clear, Component", "src/fs_path.cpp: operator=(path&&), SplitComponents"]}
{"id": "C03", "title": "root_path, relative_path and their parts reassemble the path", "statement": "root_name()+root_directory() is the text of root_path(); root_path()/relative_path() == p; relative_path() never has a root directory; has_X() is true iff X() is non-empty, for X in root_name, root_directory, root_path, relative_path, parent_path, filename, stem, extension; is_absolute() iff the text starts with '/', and is_relative() is its negation.", "quantifier": "every string-built path", "why_tests_cant": "quantifies over all paths; repeated slashes interact with stored element offsets", "anchors": ["src/fs_path.cpp: root_name, root_directory, root_path, relative_path, is_absolute, has_*"]}
{"id": "C04", "title": "parent_path drops exactly the last filename", "statement": "If p has a relative part, the elements of p.parent_path() are the elements of p without the last non-empty filename (and without the trailing empty element, if any); otherwise parent_path() == p. If p does not end in a separator then p.parent_path()/p.filename() == p.", "quantifier": "every string-built path, with and without copy elision of the returned object", "why_tests_cant": "the result object is patched in place, not re-parsed; correctness must hold for all element sequences and both elision choices", "anchors": ["src/fs_path.cpp: parent_path, filename, AppendSeparatorIfNeeded"]}
{"id": "C05", "title": "stem and extension split the filename", "statement": "For every path, stem() followed by extension() is the text of filename(); extension() is empty or starts with '.' and contains no other '.'; stem() is empty only if filename() is empty; filenames \".\", \"..\" and names whose only '.' is the first character have an empty extension.", "quantifier": "every string-built path", "why_tests_cant": "infinite input space with special cases for dots", "anchors": ["src/fs_path.cpp: FindExtension, stem, extension, filename"]}
{"id": "C06", "title": "operator/ follows POSIX append rules and is associative", "statement": "p/q is q if q is absolute; otherwise its text is p's text, followed by '/' iff p has a filename, followed by q's text. Hence path()/p == p, and (p/q)/r has the same text as p/(q/r) for all p, q, r. The elements of p/q (q relative and non-empty) are the elements of p without a trailing empty one, then the elements of q. p /= p is safe.", "quantifier": "all pairs and triples of paths, including aliasing of the operands", "why_tests_cant": "an algebraic law over all triples; code has two branches depending on string capacity", "anchors": ["src/fs_path.cpp: operator/=", "include/filesystem/fs_path.h: operator/"]}
{"id": "C07", "title": "compare is a total order on element sequences", "statement": "The sign of p.compare(q) is that of the lexicographic comparison of the element sequences of p and q (elements compared bytewise). Consequently ==,<,<=,>,>= form a consistent total order (reflexive, antisymmetric up to ==, transitive, total), and p == q iff p and q have the same element sequence.", "quantifier": "all paths, in every internal representation the API can produce (empty path has two)", "why_tests_cant": "order laws range over all triples; four code branches depending on representation", "anchors": ["src/fs_path.cpp: do_compare, compare", "include/filesystem/fs_path.h: operator== etc. 454-476"]}
{"id": "C08", "title": "Equal paths hash equally", "statement": "If p == q then hash_value(p) == hash_value(q), whatever the string hash function is.", "quantifier": "all pairs of paths in every representation, every string hash function", "why_tests_cant": "equality ignores repeated separators while the hash folds over elements; needs all pairs", "anchors": ["src/fs_path.cpp: hash_value", "include/filesystem/fs_path.h: std::hash"]}
{"id": "C09", "title": "operator+= and concat act on the native text", "statement": "After p += s the path is exactly path(p.native() + s).", "quantifier": "every path and string", "why_tests_cant": "all inputs; the element cache must be rebuilt consistently", "anchors": ["include/filesystem/fs_path.h: operator+=, concat 482-502"]}
{"id": "C10", "title": "generic_string is a faithful normal spelling", "statement": "path(p.generic_string()) == p, generic_string() contains no two consecutive '/', and equal paths have equal generic strings.", "quantifier": "every path", "why_tests_cant": "infinite input space", "anchors": ["include/filesystem/fs_path.h: make_generic, generic_string 594-618"]}
{"id": "C11", "title": "Stream output followed by stream input restores the path", "statement": "For every path p, writing it with << and reading it back with >> gives a path with the same native text and equal to p, and consumes exactly what was written (whatever characters follow).", "quantifier": "every path, including ones with quotes, backslashes, spaces and newlines", "why_tests_cant": "quoting has to be right for all byte strings", "anchors": ["include/filesystem/fs_path.h: operator<<, operator>> 512-532"]}
{"id": "C12", "title": "Forward and backward iteration agree", "statement": "Starting at begin(), end()-begin() increments reach end(); decrementing from end() visits the same elements in reverse; -- undoes ++ and ++ undoes --; no dereference in between is out of range.", "quantifier": "every path and every position", "why_tests_cant": "two iterator representations (single element / element vector); all lengths", "anchors": ["src/fs_path.cpp: begin, end, iterator::operator++, iterator::operator--, iterator::operator*, iterator::equals"]}
{"id": "C13", "title": "lexically_normal produces the normal form", "statement": "The result has no '.' element unless it is exactly \".\", contains '..' only as a prefix of a relative path, never directly after the root directory, has no repeated separators and does not end in \"../\"; it is absolute iff p is; it is empty iff p is empty. It equals the result of the C++17 eight-step normalisation stated on element lists.", "quantifier": "every path", "why_tests_cant": "in-place editing loop over arbitrary element lists; needs an invariant by induction", "anchors": ["src/fs_path.cpp: lexically_normal, is_dot, is_dotdot"]}
{"id": "C14", "title": "lexically_normal is idempotent", "statement": "p.lexically_normal().lexically_normal() has the same text as p.lexically_normal().", "quantifier": "every path", "why_tests_cant": "all inputs", "anchors": ["src/fs_path.cpp: lexically_normal"]}
{"id": "C15", "title": "lexically_normal does not change what the path denotes when there are no symlinks", "statement": "In any directory tree without symbolic links in which every intermediate directory of p exists, p and p.lexically_normal() resolve to the same node from every starting directory.", "quantifier": "every path, every symlink-free tree, every working directory in it", "why_tests_cant": "quantifies over trees and paths jointly", "anchors": ["src/fs_path.cpp: lexically_normal"]}
{"id": "C16", "title": "lexically_relative inverts append", "statement": "If r = p.lexically_relative(base) is non-empty then base/r denotes p: (base/r).lexically_normal() == p.lexically_normal(). If p is absolute and base is not (or vice versa) r is empty, and p.lexically_relative(p) == \".\".", "quantifier": "all pairs (p, base)", "why_tests_cant": "relation over all pairs; the count of '..' elements depends on the whole base", "anchors": ["src/fs_path.cpp: lexically_relative"]}
{"id": "C17", "title": "lexically_proximate always returns something usable", "statement": "p.lexically_proximate(base) is p.lexically_relative(base) if that is non-empty and p otherwise; so it is empty only if p is empty.", "quantifier": "all pairs (p, base)", "why_tests_cant": "all inputs", "anchors": ["include/filesystem/fs_path.h: lexically_proximate 233"]}
{"id": "C18", "title": "remove_filename and replace_filename touch only the filename", "statement": "After remove_filename() the text is the old text up to and including the last separator, has_filename() is false and a second call changes nothing; after replace_filename(f) with relative f the text is that prefix followed by f.", "quantifier": "every path value obtainable through the public API", "why_tests_cant": "the element cache is edited in place using stored offsets; must hold for all histories that produced the value", "anchors": ["src/fs_path.cpp: remove_filename, replace_filename"]}
{"id": "C19", "title": "replace_extension changes only the extension", "statement": "After p.replace_extension(e): the old extension is removed and '.'+e (or e if it already starts with '.', or nothing if e is empty) is appended to the text; if e is a plain extension then extension() is that and stem(), parent_path() are unchanged; p.replace_extension(p.extension()) leaves p unchanged.", "quantifier": "every path, every replacement", "why_tests_cant": "all inputs; relies on stored offsets", "anchors": ["src/fs_path.cpp: replace_extension, FindExtension"]}
{"id": "C20", "title": "No sequence of path operations has undefined behaviour or throws out_of_range", "statement": "Starting from string-built paths, any finite sequence of path operations (decomposition, append, concatenate, modifiers, lexical operations, copies, moves) executes without out-of-range access and without std::out_of_range, and yields values that behave like path(native()).", "quantifier": "all finite histories of path operations, for either choice of copy elision", "why_tests_cant": "histories are unbounded; the failure depends on an earlier operation leaving a stale element cache", "anchors": ["src/fs_path.cpp: parent_path, lexically_normal, remove_filename, relative_path, replace_extension", "include/filesystem/fs_path.h: path(path&&)"]}
{"id": "C21", "title": "Repeated parent_path terminates", "statement": "Repeatedly replacing p by p.parent_path() reaches a path without filename after at most as many steps as p has elements; so loops such as the one in create_directories terminate.", "quantifier": "every path", "why_tests_cant": "termination for all inputs", "anchors": ["src/fs_path.cpp: parent_path", "src/fs_ops.cpp: create_directories_impl"]}
{"id": "C22", "title": "absolute() returns an absolute path denoting the same place", "statement": "absolute(p) is p if p is absolute, else current_path()/p; the result is absolute whenever current_path() is; its elements are those of the working directory followed by those of p.", "quantifier": "every path, every working directory", "why_tests_cant": "all inputs", "anchors": ["src/fs_ops.cpp: absolute, do_absolute_impl 39-61"]}
{"id": "C23", "title": "error_code and throwing overloads agree", "statement": "For each operation, under the same behaviour of the operating system: if the error_code overload returns value v with ec clear, the throwing overload returns v and leaves the system in the same state; if it sets ec = e, the throwing overload throws a filesystem_error whose code is e; an incoming non-zero ec is cleared on success. (status and symlink_status of a missing file set ec but do not throw: there only the returned status has to agree.)", "quantifier": "every operation, every argument, every operating system response sequence (failures, races)", "why_tests_cant": "the response sequences of the OS cannot be enumerated; error paths are hard to trigger", "anchors": ["src/fs_error.h: ErrorHandler", "src/fs_ops.cpp: all *_impl functions", "include/filesystem/fs_ops.h: inline wrappers"]}
{"id": "C24", "title": "error_code overloads never throw filesystem_error", "statement": "No overload taking an error_code throws filesystem_error, whatever the operating system answers.", "quantifier": "every operation with an error_code overload, every operating system response sequence", "why_tests_cant": "needs all failure combinations of intermediate system calls", "anchors": ["src/fs_ops.cpp: create_directories_impl, weakly_canonical_impl", "include/filesystem/fs_ops.h: proximate, relative 410-459"]}
{"id": "C25", "title": "copy_file never touches an existing destination unless told to", "statement": "If the destination exists then: with no 'existing' option copy_file fails with file_exists; with skip_existing it returns false; with update_existing and a source not strictly newer it returns false; in all these cases it performs no system call that can modify any file. It reports failure if source or destination is not a regular file or both are the same file.", "quantifier": "all option sets, all file states, all OS responses", "why_tests_cant": "decision logic over all combinations plus all failure points", "anchors": ["src/fs_ops.cpp: copy_file_impl 418-595, stat_equivalent"]}
{"id": "C26", "title": "copy_file copies the bytes", "statement": "If copy_file returns true then the destination contains exactly the bytes of the source, however the kernel splits the transfer (partial sendfile results, fallback to read/write at any offset, short reads, short writes).", "quantifier": "all file contents and all schedules of partial transfers", "why_tests_cant": "schedules of partial transfers are chosen by the kernel and cannot be enumerated", "anchors": ["src/fs_ops.cpp: do_copy_file_sendfile 323-344, do_copy_file_default 370-394, do_copy_file 397-414"]}
{"id": "C27", "title": "The data-copy loops terminate", "statement": "do_copy_file terminates for every finite source, every schedule of partial transfers, including files truncated concurrently.", "quantifier": "all schedules of system call results", "why_tests_cant": "liveness over schedules", "anchors": ["src/fs_ops.cpp: do_copy_file_sendfile 323-344, do_copy_file_default 370-394"]}
{"id": "C28", "title": "create_directories establishes the directory chain", "statement": "If create_directories(p) succeeds then p is a directory and all its prefixes are; existing files and directories are unchanged; it returns true iff at least one directory was created; a second call returns false and changes nothing.", "quantifier": "every path and every file-system state", "why_tests_cant": "states and paths are unbounded; the loop builds a stack of prefixes", "anchors": ["src/fs_ops.cpp: create_directories_impl 630-688"]}
{"id": "C29", "title": "create_directory creates one directory or reports why not", "statement": "create_directory(p) returns true iff it created the directory; it returns false without error only if p already is a directory; in any other case it reports the error.", "quantifier": "every path and file-system state", "why_tests_cant": "all OS answers, including existing non-directories", "anchors": ["src/fs_ops.cpp: create_directory_impl 690-747"]}
{"id": "C30", "title": "remove_all removes exactly the subtree and counts it", "statement": "Without concurrent modification remove_all(p) leaves no entry at p, changes nothing outside p's subtree (symbolic links are removed, never followed), and returns the number of entries removed; for a non-existing p it returns 0 without error.", "quantifier": "all directory trees, any depth and width, any placement of symlinks", "why_tests_cant": "unbounded trees; needs induction", "anchors": ["src/fs_ops.cpp: do_remove_all_impl, remove_all_impl 1290-1337"]}
{"id": "C31", "title": "remove_all reports failure truthfully under interference", "statement": "If other processes modify the tree, remove_all never returns without an error while claiming a count different from the number of entries it removed, and never reports success while p still exists.", "quantifier": "all interleavings with other processes, all OS responses", "why_tests_cant": "races cannot be enumerated", "anchors": ["src/fs_ops.cpp: do_remove_all_impl, remove_all_impl, remove_impl"]}
{"id": "C32", "title": "remove deletes at most one entry and says so", "statement": "remove(p) returns true iff it deleted the entry p; returns false without error iff p does not exist (or is empty); otherwise reports the error.", "quantifier": "all paths, all OS responses", "why_tests_cant": "all OS responses", "anchors": ["src/fs_ops.cpp: remove_impl 1240-1284"]}
{"id": "C33", "title": "permissions() computes the requested mode", "statement": "With replace the mode set is prms; with add it is current|prms; with remove it is current & ~prms (all within 07777); exactly one chmod is issued, with the symlink-nofollow flag only if the path is a symlink and nofollow was requested; no chmod is issued if the status cannot be read.", "quantifier": "all current modes, all requested modes, all option combinations", "why_tests_cant": "2^12 x 2^12 modes times options and failure points", "anchors": ["src/fs_ops.cpp: permissions_impl 1155-1208", "include/filesystem/fs_perms.h"]}
{"id": "C34", "title": "Every named permission bit can be set and observed", "statement": "Each perms constant equals its POSIX value, the single-bit constants are pairwise distinct, and status(p).permissions() after permissions(p, x) is x for every x within mask.", "quantifier": "all perms constants and all masks", "why_tests_cant": "a statement about all bit combinations, including setgid and sticky", "anchors": ["include/filesystem/fs_perms.h", "src/posix/stat.cpp: CreateFileStatus"]}
{"id": "C35", "title": "space() reports exact byte counts", "statement": "capacity, free and available are block count times fragment size when that fits in uintmax_t, and uintmax_t(-1) when it does not; a full file system reports available == 0.", "quantifier": "all 64-bit block counts and fragment sizes", "why_tests_cant": "2^128 input pairs with overflow", "anchors": ["src/fs_ops.cpp: space_impl do_mult 1384-1432"]}
{"id": "C36", "title": "last_write_time set/get round trip", "statement": "After last_write_time(p, t) succeeds, last_write_time(p) == t (nanosecond file system); times before the epoch are rejected with invalid_argument and nothing is changed.", "quantifier": "all 64-bit nanosecond times", "why_tests_cant": "2^64 values; rounding toward zero versus floor for negatives", "anchors": ["src/fs_ops.cpp: last_write_time_impl 1051-1149", "src/posix/time.cpp"]}
{"id": "C37", "title": "Reading file times never overflows", "statement": "last_write_time(p) returns the exact time when it is representable in file_time_type and reports value_too_large otherwise; no signed overflow occurs.", "quantifier": "all 64-bit (sec, nsec) timestamps a file system can hold", "why_tests_cant": "2^64 x 10^9 inputs; overflow at the edges", "anchors": ["src/posix/time.cpp: FileTimeIsRepresentable, FileTimeTypeFromPosixTimeSpec"]}
{"id": "C38", "title": "status classification", "statement": "status/symlink_status return not_found exactly when the OS says ENOENT or ENOTDIR, throw or set ec for other errors, and otherwise report the type encoded in st_mode and its permission bits; exists() is true iff the type is known and not not_found; the is_* predicates are mutually exclusive and cover every known existing type.", "quantifier": "all st_mode values and errnos", "why_tests_cant": "all 2^32 mode words and error codes", "anchors": ["src/posix/stat.cpp", "include/filesystem/fs_ops.h: exists, is_*, status_known, is_other"]}
{"id": "C39", "title": "equivalent is an equivalence relation on existing files", "statement": "In a fixed file-system state equivalent(p,q) holds iff both resolve to the same (device, inode); it is reflexive on existing paths, symmetric, transitive; and it reports an error iff p or q does not exist.", "quantifier": "all pairs/triples of paths, all states", "why_tests_cant": "relation laws over all states", "anchors": ["src/fs_ops.cpp: equivalent_impl 852-923"]}
{"id": "C40", "title": "temp_directory_path returns a directory", "statement": "temp_directory_path() uses the first set variable among TMPDIR, TMP, TEMP, TEMPDIR and /tmp otherwise; if it returns without error the result is a directory, else it reports the status error or not_a_directory and returns an empty path.", "quantifier": "all environments and OS responses", "why_tests_cant": "all environments", "anchors": ["src/fs_ops.cpp: temp_directory_path_impl 1559-1597"]}
{"id": "C41", "title": "weakly_canonical canonicalises the existing prefix or reports an error", "statement": "weakly_canonical(p) equals canonical(longest existing prefix)/rest, lexically normalised; on any failure it reports the error (throws or sets ec).", "quantifier": "all paths, all OS responses", "why_tests_cant": "loop over elements with failure points everywhere", "anchors": ["src/fs_ops.cpp: weakly_canonical_impl 1603-1652"]}
{"id": "C42", "title": "Directory iteration lists exactly the entries", "statement": "directory_iterator visits every entry of the directory exactly once, except '.' and '..', with path dir/name, then becomes end; read errors are reported and end the iteration; nothing is visited twice.", "quantifier": "all directory contents and all readdir result sequences", "why_tests_cant": "unbounded directories, OS errors at any point", "anchors": ["src/fs_dir_iterator.cpp: DirectoryStream, directory_iterator", "include/filesystem/fs_dir.h"]}
{"id": "C43", "title": "Recursive iteration visits the whole tree once", "statement": "recursive_directory_iterator visits every entry of the tree exactly once in depth-first pre-order without entering symbolic links (default options), and terminates.", "quantifier": "all trees (any depth, width, symlink placement, d_type support)", "why_tests_cant": "unbounded trees; depends on the order of siblings", "anchors": ["src/fs_dir_iterator.cpp: recursive_directory_iterator::Advance, TryRecursion, DirectoryStream::advance"]}
{"id": "C44", "title": "follow_directory_symlink also enters linked directories", "statement": "With directory_options::follow_directory_symlink the recursive iterator enters real directories and symlinks to directories.", "quantifier": "all trees", "why_tests_cant": "unbounded trees", "anchors": ["src/fs_dir_iterator.cpp: TryRecursion 978-1031, directory_entry::GetFileType"]}
{"id": "C45", "title": "skip_permission_denied", "statement": "With skip_permission_denied, a directory that cannot be opened because of EACCES is skipped and iteration continues with its next sibling without error; without the option the error is reported and the iterator becomes end; other errors are always reported.", "quantifier": "all OS responses", "why_tests_cant": "every failure point", "anchors": ["src/fs_dir_iterator.cpp: DirectoryStream ctor, directory_iterator ctor, TryRecursion"]}
{"id": "C46", "title": "depth, pop and disable_recursion_pending", "statement": "depth() is the number of directories between the root of the iteration and the current entry; pop() leaves the current directory and continues with the next entry of its parent (end if there is none); disable_recursion_pending() skips exactly the current entry's subtree and recursion is pending again after the next increment.", "quantifier": "all histories of increments, pops and disable calls, all trees", "why_tests_cant": "all histories", "anchors": ["src/fs_dir_iterator.cpp: depth, pop_impl, do_increment", "include/filesystem/fs_dir.h: disable_recursion_pending"]}
{"id": "C47", "title": "Directory handles are neither leaked nor used after close", "statement": "Every successful opendir is matched by exactly one closedir by the time the last iterator copy is destroyed or at end; readdir is never called on a closed or null handle by an increment of a non-end iterator.", "quantifier": "all histories of iterator operations, all OS responses", "why_tests_cant": "all histories and failure points", "anchors": ["src/fs_dir_iterator.cpp: DirectoryStream, directory_iterator, recursive_directory_iterator"]}
{"id": "C48", "title": "directory_entry observers agree with the free functions", "statement": "For an unchanged file system, entry.exists(), is_directory(), is_symlink(), file_size(), hard_link_count(), last_write_time(), status() and symlink_status() - with and without error_code - return what the free functions return for entry.path().", "quantifier": "all entries (constructed or obtained by iteration), all file states, all observer histories", "why_tests_cant": "the cache is a state machine; all observer histories", "anchors": ["src/fs_dir_iterator.cpp: UpdateBasic..GetSymLinkStatus 23-516", "include/filesystem/fs_dir.h: CachedData_, HandleError, observers"]}
{"id": "C49", "title": "copy dispatches on the source type and options", "statement": "copy(from,to,opt): error if from does not exist, if from and to are the same file, if either is a special file, if from is a directory and to a regular file; symlinks are skipped/copied according to the symlink options; regular files are copied, linked or ignored per the options; copying a directory with create_symlinks is an error is_a_directory; no modifying system call happens in any rejected or skip case.", "quantifier": "all option sets, all file types, all OS responses", "why_tests_cant": "product of types, options and failures", "anchors": ["src/fs_ops.cpp: copy_impl 176-296"]}
{"id": "C50", "title": "Recursive copy reproduces the tree", "statement": "If copy(from,to,recursive) reports success and to did not exist, then the tree at to equals the tree at from (names, types, contents), and from and everything else is unchanged; it terminates.", "quantifier": "all trees", "why_tests_cant": "unbounded trees", "anchors": ["src/fs_ops.cpp: copy_impl 176-296, create_directory_impl, copy_file_impl"]}
{"id": "C51", "title": "copy reports errors met while listing the source directory", "statement": "If reading the source directory fails part way, copy reports the error instead of returning success with a partial copy.", "quantifier": "all OS responses", "why_tests_cant": "failure in the middle of a listing", "anchors": ["src/fs_ops.cpp: copy_impl loop 270-296"]}
{"id": "C52", "title": "filesystem_error carries the paths of the failing call", "statement": "The exception thrown by an operation has path1() equal to its first path argument and path2() equal to its second; what() mentions the message and every non-empty path.", "quantifier": "all operations and paths", "why_tests_cant": "all operations times all paths", "anchors": ["src/filesystem_error.cpp", "include/filesystem/filesystem_error.h", "src/fs_error.h", "src/fs_ops.cpp: copy_file_impl ErrorHandler"]}
{"id": "C53", "title": "Option types are bit masks", "statement": "For copy_options, directory_options, perms and perm_options, the operators & | ^ ~ and their assignment forms satisfy the Boolean algebra laws and never produce bits outside the underlying integer width; enumerators of one group are distinct non-overlapping bits.", "quantifier": "all values of the enum types", "why_tests_cant": "all values", "anchors": ["include/filesystem/fs_perms.h", "include/filesystem/fs_copy_options.h", "include/filesystem/fs_directory_options.h"]}
{"id": "C54", "title": "is_empty and file_size", "statement": "is_empty(p) is true iff p is a directory without entries (besides . and ..) or a regular file of size 0, and reports not_supported for other types; file_size(p) is the size of a regular file, is_a_directory for directories, not_supported for other types; failures are reported and give the error value.", "quantifier": "all file states and OS responses", "why_tests_cant": "all OS responses", "anchors": ["src/fs_ops.cpp: is_empty_impl, file_size_impl"]}
{"id": "C55", "title": "Simple mutators issue exactly the intended system call", "statement": "rename, resize_file, create_hard_link, create_symlink, current_path(p), read_symlink issue exactly one modifying system call with the given arguments, report its errno if it fails, and nothing else; resize_file(p,n) for n above the largest off_t is an error and does not change the file.", "quantifier": "all arguments, all OS responses", "why_tests_cant": "all OS responses and all 64-bit sizes", "anchors": ["src/fs_ops.cpp: rename_impl, resize_file_impl, create_hard_link_impl, create_symlink_impl, read_symlink_impl, current_path_impl"]}
{"id": "C56", "title": "File descriptors are closed exactly once", "statement": "Every descriptor opened by copy_file is closed exactly once on every path (success, any error, exception), and never used after close.", "quantifier": "all OS responses (failure at any system call)", "why_tests_cant": "failure points", "anchors": ["src/fs_portability.h: FileDescriptor", "src/posix/file.cpp", "src/fs_ops.cpp: copy_file_impl"]}
{"id": "C57", "title": "Windows path grammar: root names and directories", "statement": "On Windows: drive (x:) and //host root names are recognised, root_name/root_directory/relative_path partition the elements, parsing never has undefined behaviour, append with a different root name replaces, and root_path()/relative_path() == p.", "quantifier": "every string", "why_tests_cant": "all strings; drive and UNC corner cases", "anchors": ["src/fs_path.cpp: SplitComponents ASAP_WINDOWS branches, is_absolute, operator/="]}
{"id": "C58", "title": "Windows time conversion round trip", "statement": "Converting a file_time to FILETIME and back loses at most the sub-second part the code truncates, never overflows for representable values, and rejects times before 1601.", "quantifier": "all 64-bit times", "why_tests_cant": "2^64 values", "anchors": ["src/windows/time.cpp"]}
{"id": "C59", "title": "Windows permission mapping is monotone", "statement": "The ACL entries generated for a permission set allow exactly the requested rights: reading the generated ACL back yields the requested owner/group/others bits.", "quantifier": "all 512 permission sets", "why_tests_cant": "all sets and trustees", "anchors": ["src/windows/permissions.cpp"]}
{"id": "C60", "title": "canonical's symlink expansion terminates", "statement": "The Windows canonical algorithm follows at most 40 symbolic links and terminates on every file system, reporting too_many_symbolic_link_levels on loops; its result has no '.', '..' or symlink elements.", "quantifier": "all file systems including symlink cycles", "why_tests_cant": "cycles and unbounded expansions", "anchors": ["src/fs_ops.cpp: canonical_impl 100-160"]}
{"id": "C61", "title": "remove_all acts only under p, also under interference", "statement": "Whatever the operating system answers and whatever other processes do, remove_all(p) examines, opens and removes only p and paths that extend p by names the system listed, and opens a directory only when the call just before it saw that it is a directory and not a symbolic link.", "quantifier": "all executions, all OS responses", "why_tests_cant": "races and trees cannot be enumerated", "anchors": ["src/fs_ops.cpp: do_remove_all_impl 1292-1315"]}
{"id": "C62", "title": "copy_symlink makes a link with the same text", "statement": "copy_symlink(a,b) reads the text of the link a and creates exactly one symbolic link b with that text; errors of reading or creating are reported; nothing else is changed.", "quantifier": "all paths, all link texts, all OS responses", "why_tests_cant": "all link texts and failure points", "anchors": ["src/fs_ops.cpp: copy_symlink_impl 597-624, read_symlink_impl, create_symlink_impl"]}
{"id": "C63", "title": "The file copy_file replaces is the file it examined", "statement": "copy_file never changes contents or permissions of a file other than the one whose type, identity and time it examined when deciding to replace the destination, even if names are exchanged concurrently.", "quantifier": "all executions, all interleavings with other processes renaming files", "why_tests_cant": "interleavings cannot be enumerated", "anchors": ["src/fs_ops.cpp: copy_file_impl 498-593, stat_equivalent"]}
{"id": "C64", "title": "copy_file copies through symbolic links", "statement": "If source and destination names resolve to different regular files, the options permit replacing, and no call fails, copy_file returns true, also if either name is a symbolic link.", "quantifier": "all attributes, all option sets, all executions without failures", "why_tests_cant": "depends on the whole sequence of answers", "anchors": ["src/fs_ops.cpp: copy_file_impl 418-595", "src/posix/file.cpp: RefreshStatus"]}
{"id": "C65", "title": "Windows: status and symlink_status tell the truth", "statement": "On an unchanging disk status(p) reports the type of what p leads to and symlink_status(p) that of p itself; not_found (and exists == false without an error) only where there is nothing; is_directory and is_symlink agree with the disk; nothing is thrown.", "quantifier": "all disks, all paths, all answers the disk permits", "why_tests_cant": "all combinations of reparse points, failures and paths", "anchors": ["src/fs_ops.cpp: status_impl 1440-1483, symlink_status_impl 1488-1512", "src/windows/stat.cpp"]}
{"id": "C66", "title": "Windows: equivalent is identity of files", "statement": "equivalent(p,q) without an error is true iff p and q lead to the same file; it is reflexive, symmetric and transitive; with an error it is false.", "quantifier": "all disks, all pairs of paths", "why_tests_cant": "all pairs of paths and failure points", "anchors": ["src/fs_ops.cpp: equivalent_impl 852-905"]}
{"id": "C67", "title": "Windows: file_size and hard_link_count are those of the file", "statement": "file_size(p) is the exact size of the file p leads to (all 64 bits), an error for directories; hard_link_count(p) its number of names.", "quantifier": "all disks, all sizes up to 2^64, all paths", "why_tests_cant": "2^64 sizes, links", "anchors": ["src/fs_ops.cpp: file_size_impl 929-946, hard_link_count_impl 968-985"]}
{"id": "C68", "title": "Windows: last_write_time reads what was set", "statement": "After last_write_time(p,t) succeeded, last_write_time(p) returns t up to the truncated part of a second; no other file's time changes; a failed call changes nothing.", "quantifier": "all times, all executions", "why_tests_cant": "2^64 times", "anchors": ["src/fs_ops.cpp: last_write_time_impl 1051-1104", "src/windows/time.cpp"]}
{"id": "C69", "title": "Windows: read_symlink returns the target of the link", "statement": "read_symlink(p) returns exactly the print name stored in the link (symbolic link or mount point) p, of whatever length and position in the buffer; the handle is closed; errors are reported.", "quantifier": "all reparse data, all OS responses", "why_tests_cant": "all buffers", "anchors": ["src/windows/stat.cpp: 110-147"]}
{"id": "C70", "title": "Windows: remove deletes at most the named entry", "statement": "remove(p) returns true iff it deleted the file or empty directory named p, false without an error iff nothing is there, and never touches anything else.", "quantifier": "all directories, all paths, all executions", "why_tests_cant": "all answers and interleavings", "anchors": ["src/fs_ops.cpp: remove_impl 1240-1284"]}
{"id": "C71", "title": "Windows: create_directory tells whether it created", "statement": "create_directory(p) and create_directory(p, template) return true iff the directory was made by the call; false without an error only if a directory is there.", "quantifier": "all states, all answers", "why_tests_cant": "all answers", "anchors": ["src/fs_ops.cpp: create_directory_impl 690-727"]}
{"id": "C72", "title": "Windows: single-call mutators do what they are asked and report the call's error", "statement": "create_symlink, create_directory_symlink, create_hard_link, current_path(p), rename make one call with the arguments given and report its error; resize_file makes the size exactly n or changes nothing.", "quantifier": "all paths, all sizes, all OS responses", "why_tests_cant": "argument order and every failure point", "anchors": ["src/fs_ops.cpp: 753-799, 834-841, 1343-1372"]}
{"id": "C73", "title": "Windows: looking changes nothing", "statement": "The observers (status, symlink_status, exists, is_*, equivalent, file_size, hard_link_count, last_write_time(p), read_symlink, space, current_path, absolute, temp_directory_path, is_empty), directory_entry (refresh and observers) and the iterators make no call that changes the file system, in every execution.", "quantifier": "all paths, all OS responses, all failure points", "why_tests_cant": "all paths and failures; a test sees only the final state", "anchors": ["src/fs_ops.cpp (Windows branches)", "src/windows/stat.cpp", "src/fs_dir_iterator.cpp (Windows branches)"]}
{"id": "C74", "title": "Windows: copy_file copies exactly when asked", "statement": "copy_file(from,to,options) changes something only by one CopyFileW(from,to); it returns true iff that succeeded; it follows the options (none: error if to exists; skip; overwrite; update: only if from is newer); never copies a file onto itself; otherwise reports an error and changes nothing.", "quantifier": "all disks, all times, all options, all failure points", "why_tests_cant": "2^64 x 2^64 times, every failure of every call", "anchors": ["src/fs_ops.cpp: copy_file_impl (Windows branch) 417-490"]}
{"id": "C75", "title": "Windows: every file handle is closed exactly once", "statement": "In every execution of the operations, of directory_entry and of the iterators, also those that end with an exception, each handle from CreateFileW is closed exactly once and never used when it is not open.", "quantifier": "all executions", "why_tests_cant": "every failure point; a leaked handle is not visible in a result", "anchors": ["src/windows/stat.cpp", "src/fs_ops.cpp", "include/filesystem/fs_portability.h: 255-335"]}
{"id": "C76", "title": "Windows: the two overloads agree, the one with an error_code does not throw", "statement": "For every operation, the iterators included: op(p, ec) makes the same system calls as op(p), returns what op(p) returns or sets the error op(p) throws, and throws nothing itself.", "quantifier": "all operations, arguments, OS responses, executions", "why_tests_cant": "needs every failure point of every call in both overloads", "anchors": ["src/fs_ops.cpp (Windows branches)", "src/fs_error.h: ErrorHandler", "src/windows/stat.cpp"]}
{"id": "C77", "title": "Windows: every search handle is closed exactly once", "statement": "The iterators (however they are driven and whenever they are given up), is_empty, remove_all and copy use and close only search handles that are open, and when they are done, normally or by an exception, exactly the handles open before are open.", "quantifier": "all executions, all clients, any recursion depth, both overloads", "why_tests_cant": "every failure point at every depth; a leaked handle is not visible in a result", "anchors": ["src/fs_dir_iterator.cpp (Windows branches): 640-760, 835-1031", "src/fs_ops.cpp: is_empty, remove_all, copy"]}
{"id": "C78", "title": "Windows: directory_iterator lists every entry once, in order, or reports the error", "statement": "Iterating over a directory shows exactly the entries that the search of Windows gives except . and .., each once, in order, with the path dir/name; an error that ends the search is reported; a refused directory is empty with skip_permission_denied.", "quantifier": "all directory texts, all answers of the search, any number of entries", "why_tests_cant": "any failure at any entry, any mixture of . and .. and names", "anchors": ["src/fs_dir_iterator.cpp: 640-760, 835-880 (Windows branches)"]}
{"id": "C79", "title": "Windows: recursive_directory_iterator visits a tree depth first", "statement": "Over an unchanging tree the positions reached by any history of increment, pop and disable_recursion_pending are those of the depth-first listing, every entry once; links and junctions are entered only with follow_directory_symlink; at the end no search is open.", "quantifier": "all trees, all histories of calls, any depth", "why_tests_cant": "trees of any shape and depth; junctions that lead upwards make the walk endless", "anchors": ["src/fs_dir_iterator.cpp: 640-760, 880-1031 (Windows branches)"]}
{"id": "C80", "title": "Windows: a directory_entry agrees with the free functions on its path", "statement": "For an entry obtained by iterating, or made from a path, exists, is_*, file_size, hard_link_count, last_write_time, status and symlink_status agree with the free functions on the entry's path while the file system does not change; with a code and without.", "quantifier": "all paths, all file systems, all answers of the system", "why_tests_cant": "the cache states, kinds of object and failing calls are too many to sample, and the Windows branches need a Windows system", "anchors": ["src/fs_dir_iterator.cpp: 23-540 (Windows branches)", "include/filesystem/fs_dir.h: 44-240"]}
{"id": "C81", "title": "Windows: remove_all never leaves the tree nor follows a link", "statement": "remove_all(p, ec) examines, lists and removes only p and paths made of p and listed names other than . and .. , opens reparse points only without following them, and lists a directory only when it was just seen to be a directory that is no reparse point; also when other processes change the tree meanwhile.", "quantifier": "all paths, all answers of the system (names listed are file names)", "why_tests_cant": "interference of other processes and the Windows branches cannot be sampled by unit tests", "anchors": ["src/fs_ops.cpp: 1292-1337", "src/fs_ops.cpp: 1256-1290", "src/fs_dir_iterator.cpp: 644-740"]}
{"id": "C82", "title": "Windows: remove_all reports truthfully", "statement": "When remove_all(p, ec) leaves ec clear, p does not exist any more and the result is the number of files removed (0 if there was nothing); otherwise the result is -1 and the error is one a call answered.", "quantifier": "all paths, all answers of the system (names listed are file names)", "why_tests_cant": "the interleavings with other processes cannot be enumerated by tests", "anchors": ["src/fs_ops.cpp: 1292-1337", "src/fs_ops.cpp: 1256-1290"]}
{"id": "C83", "title": "Windows: create_directories makes the missing prefixes, shortest first", "statement": "create_directories(p, ec) changes nothing that exists and makes only directories, only at prefixes of p, from the shortest to the longest. If ec is left clear every prefix exists and the result is true exactly if a directory was made; if the system makes the directories asked for there is no error; if all prefixes exist nothing is made and the result is false.", "quantifier": "all paths of plain names, all states of the disk, all answers consistent with it", "why_tests_cant": "unit tests look at a few paths on one disk", "anchors": ["src/fs_ops.cpp: 630-688", "src/fs_ops.cpp: 690-712"]}
{"id": "C84", "title": "Windows: permissions requests exactly the mode asked for, once", "statement": "permissions(p, prms, opts, ec) with exactly one of replace, add and remove makes one request to set the permissions of p: prms, those found or prms, or those found without prms. If the file cannot be examined, the error is reported and nothing is changed. With none or several of the options nothing is asked and an assertion fails.", "quantifier": "all paths, permissions, options and answers", "why_tests_cant": "2^12 permissions times the permissions found times the failures", "anchors": ["src/fs_ops.cpp: 1155-1192"]}
{"id": "C85", "title": "Windows: absolute is absolute", "statement": "absolute(p, ec) returns p if it is absolute and has a root name; otherwise the working directory combined with p, which is absolute; a failure to get the working directory is reported.", "quantifier": "all paths, all working directories", "why_tests_cant": "paths and working directories of all shapes", "anchors": ["src/fs_ops.cpp: 39-61"]}
{"id": "C86", "title": "Windows: space gives the numbers of the volume of p", "statement": "space(p, ec) gives the capacity, free and available bytes the system answers for the volume that holds p; on failure it reports the error in ec and all values are uintmax_t(-1).", "quantifier": "all absolute paths, all answers", "why_tests_cant": "full disks, mounted volumes and failures are not available to unit tests", "anchors": ["src/fs_ops.cpp: 1384-1411"]}
{"id": "C87", "title": "Windows: temp_directory_path gives a directory", "statement": "temp_directory_path(ec) returns without error only a path that leads to a directory; otherwise an error is reported; nothing is changed.", "quantifier": "all states of the disk, all answers consistent with it", "why_tests_cant": "the environment and the failures cannot be varied by unit tests", "anchors": ["src/fs_ops.cpp: 1559-1597"]}
{"id": "C88", "title": "Copies of an iterator share its position, not its recursion flag", "statement": "After increment or pop of a directory iterator all its copies are at the same entry (unless it became the end iterator); what they refer to and their recursion_pending stay, and no other iterator is affected. disable_recursion_pending acts on one copy only. An iterator without copies makes the calls, and ends in the state, of an iterator that owns its streams.", "quantifier": "all heaps of shared objects and variables, all answers", "why_tests_cant": "sharing patterns times answers of the system are unbounded", "anchors": ["src/fs_dir_iterator.cpp: 852-868", "src/fs_dir_iterator.cpp: 901-1031", "include/filesystem/fs_dir.h: 425-435", "include/filesystem/fs_dir.h: 543-555", "include/filesystem/fs_dir.h: 586"]}
{"id": "C89", "title": "Paths on Windows are totally ordered by their elements and equal paths hash equally", "statement": "On Windows compare has the sign of the lexicographic order of the element sequences, with elements compared as texts; ==, !=, <, <=, >, >= form a total order whose equality is equality of the element sequences, so c:\\a and c:/a are equal and c:a and c:\\a are not; equal paths have equal hash values whatever the hash function on texts.", "quantifier": "all pairs and triples of paths built from texts, their elements, and these after make_preferred", "why_tests_cant": "all texts and all interleavings of the separators", "anchors": ["src/fs_path.cpp: 459-514", "src/fs_path.cpp: 612-624", "include/filesystem/fs_path.h: 449-506"]}
{"id": "C90", "title": "Moving a path on Windows preserves it and its elements", "statement": "On Windows, parsing the stored text of a path again, move construction and move assignment give the same object, and leave the source empty; and the same holds for each of its elements.", "quantifier": "all texts", "why_tests_cant": "all texts; the move of the elements is done by std::vector at unspecified sizes", "anchors": ["include/filesystem/fs_path.h: 72-75", "src/fs_path.cpp: 25-106", "src/fs_path.cpp: 121-127"]}
{"id": "C91", "title": "Generic spelling and stream round trip on Windows", "statement": "On Windows generic_string has no backslash and no two slashes in a row except before a host name; parsing it gives the same elements; it is equal exactly for equal paths. A path written with << and read with >> is the same object, and what follows stays in the stream.", "quantifier": "all texts, all leading white space, all remaining stream contents", "why_tests_cant": "all texts, including quotes and spaces", "anchors": ["include/filesystem/fs_path.h: 512-533", "include/filesystem/fs_path.h: 583-640"]}
{"id": "C92", "title": "parent_path, remove_filename and replace_filename on Windows", "statement": "On Windows parent_path drops exactly the last name (and a trailing separator) and is the path itself if there is no name; appending the filename gives a path equal to the original. remove_filename leaves the text before the filename, no filename, and is idempotent. replace_filename by a relative path without root keeps root and directories and puts its names there.", "quantifier": "all texts", "why_tests_cant": "all roots, separators and names", "anchors": ["src/fs_path.cpp: 266-316", "src/fs_path.cpp: 638-663"]}
{"id": "C93", "title": "stem, extension and replace_extension on Windows", "statement": "On Windows stem and extension split the filename at its last dot, unless it is .. or its only dot is the first character; has_stem and has_extension say whether they are empty. replace_extension by another object removes the extension and puts the new one in its place, with a dot if it has none; replacing by the own extension changes nothing; a new one without separators and further dots leaves stem and directory alone.", "quantifier": "all texts, all replacements", "why_tests_cant": "all texts", "anchors": ["src/fs_path.cpp: 141-150", "src/fs_path.cpp: 318-363", "src/fs_path.cpp: 665-690"]}
{"id": "C94", "title": "lexically_normal on Windows yields the normal form", "statement": "On Windows lexically_normal keeps root name and root directory and yields the unique result of rewriting the elements after them by the C++17 rules (drop . and name/.. pairs, drop .. after the root directory, drop a trailing separator after ..), spelled with single backslashes, or . if nothing is left; the empty path stays empty. Normalizing again changes nothing. Without symbolic links the result denotes the same file of the same drive.", "quantifier": "all texts, all trees of drives without links", "why_tests_cant": "all texts and all rewriting sequences", "anchors": ["src/fs_path.cpp: 692-790"]}
{"id": "C95", "title": "lexically_relative and lexically_proximate on Windows lead back to the path", "statement": "On Windows lexically_relative is empty if root names differ or only one path has a root directory, . for equal paths, and otherwise one .. for each element of the base after the common elements followed by the rest of the path. base / result and the path have the same normal form. lexically_proximate is the relative path if there is one, else the path itself.", "quantifier": "all pairs of texts", "why_tests_cant": "all pairs of texts", "anchors": ["src/fs_path.cpp: 792-829", "include/filesystem/fs_path.h: 233-239"]}
{"id": "C96", "title": "Windows: is_empty tells whether a file or directory is empty", "statement": "On Windows is_empty reads the attributes once and reports a failure. For a file it is true exactly if the 64-bit size is zero. A directory is searched up to the first entry other than . and ..: it is empty exactly if there is none, an error of the search is reported with false, and the search is closed.", "quantifier": "all paths, all answers of the system", "why_tests_cant": "all sequences of answers", "anchors": ["src/fs_ops.cpp: 1003-1024"]}
{"id": "C97", "title": "Windows: copy does what source, destination and options call for", "statement": "On Windows copy looks at the source and the destination without changing anything and then does exactly one thing, given by the kinds of the two files (links seen only if an option concerns links), whether they are the same file, and the options: report an error, nothing, copy the link, make a symbolic or hard link, copy the file (into the destination if that is a directory), or copy the directory. A directory is made after the source if missing, then listed, and every entry but . and .. copied to the same name under the destination, with the same options, until one fails.", "quantifier": "all paths, options, disks and answers of the system, names of entries without separators", "why_tests_cant": "all kinds of files, all options and all listings", "anchors": ["src/fs_ops.cpp: 176-222", "src/fs_ops.cpp: 240-296"]}
{"id": "C98", "title": "Windows: copy reports errors in listing the directory to be copied", "statement": "On Windows, if a directory that copy is to copy cannot be listed completely, copy reports the error; if it can, copy reports no error of the listing.", "quantifier": "all paths, options, disks and answers of the system", "why_tests_cant": "all sequences of answers", "anchors": ["src/fs_ops.cpp: 271-294"]}
{"id": "C99", "title": "Windows: remove_all removes exactly the subtree and counts it", "statement": "On Windows, of a file or directory p that nothing else uses or changes, remove_all(p) removes everything below it and p itself, changes nothing else, leaves nothing open and returns the number of files removed; reparse points (links, junctions and others) are removed, not entered. If nothing is at p it returns 0 and changes nothing.", "quantifier": "all trees (any depth and width), all orders of listing, any attributes of the entries listed, all paths", "why_tests_cant": "all trees and listing orders", "anchors": ["src/fs_ops.cpp: 1240-1337"]}
{"id": "C100", "title": "Windows: a recursive copy reproduces the tree", "statement": "On Windows, when nothing is at to and no call fails, copy(from, to, recursive) of a tree of directories and files makes at to a tree with the same names, types and contents and nothing more, and leaves the source and everything else unchanged. When a call fails, an error is reported. In all cases no search is left open.", "quantifier": "all trees (any depth and width), all contents, all orders of listing, failures of any calls, all paths", "why_tests_cant": "all trees, contents, listing orders and failures", "anchors": ["src/fs_ops.cpp: 176-296", "src/fs_ops.cpp: 418-595", "src/fs_ops.cpp: 712-750"]}
{"id": "C101", "title": "Windows: copy_symlink copies the link", "statement": "On Windows copy_symlink(a, b) of a symbolic link makes one link b with the text of a, a link to a directory if a leads to a directory and a link to a file otherwise; it changes nothing else, and errors are reported.", "quantifier": "all paths, all link texts, all OS responses consistent with a file system", "why_tests_cant": "all texts, file systems and failures", "anchors": ["src/fs_ops.cpp: 597-620", "src/fs_ops.cpp: 753-763", "src/fs_ops.cpp: 789-799"]}
{"id": "C102", "title": "Windows: the security calls of GetPermissions and SetPermissions", "statement": "On Windows reading and setting permissions uses no memory that is not held and frees all memory it gets, on every path; setting looks up owner and group, makes the entries of the requested permissions and sets them, in this order, and the first failing call ends it with its error; reading asks for the rights of owner, group and everyone, and what was set is read back as C59 says; the error of a failing call is the one reported.", "quantifier": "all paths, permission sets, attributes, all answers of the security calls including exhausted memory", "why_tests_cant": "all failures at every call and all permission sets", "anchors": ["src/windows/permissions.cpp: 136-152", "src/windows/permissions.cpp: 206-377", "src/windows/permissions.cpp: 379-632"]}
{"id": "C103", "title": "Windows: library calls with the security calls spelled out", "statement": "On Windows every library call that reads or sets permissions has, with the security calls spelled out, only outcomes it has with reading and setting as single calls; so status and exists say not_found only where there is nothing.", "quantifier": "all library calls of the Windows model, all answers of the system", "why_tests_cant": "all answers of every call", "anchors": ["src/windows/permissions.cpp: 325-377", "src/windows/permissions.cpp: 420-632", "src/fs_ops.cpp: 1440-1512"]}
{"id": "C104", "title": "Windows: canonical names the place a path leads to", "statement": "On Windows the path canonical returns names the place to which the names of the given absolute path lead, link by link, and going there again meets no link, no '.' and no '..'; if the names lead somewhere over fewer than 40 links and nothing fails, that place is returned; two paths that lead to the same place have the same result.", "quantifier": "all absolute paths, all sets of links, all runs in which the answers about links are right", "why_tests_cant": "all graphs of links, nested to any depth, with '.' and '..' anywhere", "anchors": ["src/fs_ops.cpp: 83-162"]}
{"id": "C105", "title": "Windows: canonical with all its calls", "statement": "On Windows, on a disk that does not change, canonical(p, ec) of an absolute path whose names lead to a place over fewer than 40 links returns a path naming that place, and something exists there; otherwise a Windows call failed or a name '.' was met at a file, and that error is the one reported.", "quantifier": "all absolute paths, all disks with any set of links, all sequences of answers that describe the disk, failures at any call", "why_tests_cant": "every call of the status functions, of read_symlink and of absolute below it may fail, in every order", "anchors": ["src/fs_ops.cpp: 83-162"]}
{"id": "C106", "title": "copy_file on macOS: fcopyfile", "statement": "Where fcopyfile is used instead of sendfile, copy_file returning true means that the destination holds the bytes of the source; it makes no other changes than with the read and write loop; the state of fcopyfile is used between its allocation and its release only, and is always released.", "quantifier": "all paths, options, file contents, answers of the operating system", "why_tests_cant": "whether and after how many bytes fcopyfile fails is not in the hands of a test", "anchors": ["src/fs_ops.cpp: 345-414"]}
{"id": "C107", "title": "last_write_time with utime", "statement": "Where utime is used, setting a time before the epoch is rejected without a change; setting a time from the epoch on keeps the access time and a following read returns the time set; an error of a call is reported.", "quantifier": "all paths, all times, all file times, failures at any call", "why_tests_cant": "the variant is not built where the tests run, and the times are unbounded", "anchors": ["src/fs_ops.cpp: 1128-1150"]}
{"id": "C108", "title": "permissions without AT_SYMLINK_NOFOLLOW", "statement": "Where fchmodat is not used, permissions changes the mode of a file with exactly one chmod to what was asked for, refuses symbolic links with operation_not_supported, and reports the error of each call.", "quantifier": "all paths, permissions, options, modes found, failures at any call", "why_tests_cant": "the variant is not built where the tests run", "anchors": ["src/fs_ops.cpp: 1153-1210"]}
{"id": "C109", "title": "Functions declared noexcept let no exception out", "statement": "No exception leaves a function of fs_ops.h or of directory_entry that is declared noexcept (the forms with error_code), nor the destructor of an iterator: std::terminate is not called.", "quantifier": "all functions so declared, arguments, entries with any cache, error codes, answers of the operating system, both systems", "why_tests_cant": "which call fails and when is not in the hands of a test, and the failing program is ended", "anchors": ["include/filesystem/fs_ops.h: 119-516", "include/filesystem/fs_dir.h: 76-230", "src/fs_ops.cpp: 1384-1411"]}
{"id": "C110", "title": "copy acts only at the source and the destination", "statement": "copy(from, to) looks only at from, to and what is under them, and makes or writes only to, what is under it, or to/filename(from); it removes, renames, truncates or changes nothing else by name, and writes only to files it has opened for writing there.", "quantifier": "all paths, options, both overloads, any depth, all answers of the operating system whose listings hold names", "why_tests_cant": "a stray write is only seen by looking everywhere else, for every tree and every failure on the way", "anchors": ["src/fs_ops.cpp: 176-296", "src/fs_ops.cpp: 418-545"]}
{"id": "C111", "title": "Windows: copy acts only at the source and the destination", "statement": "On Windows copy(from, to) looks only at from, to, what is under them and the targets of links it has read, opens nothing for writing, lists only directories at the source, and makes or writes only to, what is under it, or to / from.filename(); its exceptions name such places.", "quantifier": "all paths, options, both overloads, any depth, all answers of the system whose listings hold names", "why_tests_cant": "a stray write is only seen by looking everywhere else, for every tree and every failure on the way", "anchors": ["src/fs_ops.cpp: 176-296", "src/fs_ops.cpp: 418-487", "src/fs_ops.cpp: 597-624"]}
{"id": "C112", "title": "Windows: filesystem_error carries the paths of the failing call", "statement": "On Windows the exception thrown by an operation has path1() equal to its first path argument and path2() equal to its second.", "quantifier": "all operations, paths and answers of the system", "why_tests_cant": "which call fails and when is not in the hands of a test", "anchors": ["src/fs_ops.cpp: 39-1597", "src/fs_error.h: 45-151"]}
{"id": "C113", "title": "Operations change only what their name says", "statement": "Whatever happens, an operation changes the file system only by the means its name promises: remove only removes at p, resize_file only truncates p to the given size, permissions only sets the permissions of p, copy_file opens, writes and sets permissions but makes and removes no other files, remove_all only removes, create_directories only makes directories; operations that look (status and its predicates, canonical, equivalent, is_empty, file_size, the iterators, directory_entry, ...) change nothing.", "quantifier": "all operations, paths, options, both overloads, all answers of the system, also executions that fail", "why_tests_cant": "that something never happens on any failure path is not shown by the paths a test takes", "anchors": ["src/fs_ops.cpp: 39-1597", "src/fs_dir_iterator.cpp: 23-1031"]}
{"id": "C114", "title": "No operation runs into undefined behaviour or a failed assertion", "statement": "Called with paths made by path's own operations, valid options and iterators as the library returns them, no operation, increment or question to an entry reaches undefined behaviour, a failed ASAP_ASSERT or an exception other than filesystem_error, whatever the system answers.", "quantifier": "all operations, arguments, histories of iterators and entries, all answers of the system", "why_tests_cant": "undefined behaviour and assertions hide on paths taken only for answers a test cannot provoke", "anchors": ["src/fs_ops.cpp: 39-1597", "src/fs_dir_iterator.cpp: 23-1031", "include/filesystem/fs_dir.h: 51-320"]}
{"id": "C115", "title": "weakly_canonical, proximate and relative on Windows", "statement": "weakly_canonical of an existing path is its canonical path; of an absolute path whose first elements exist it is the canonical path of these followed by the remaining elements, in normal form; if nothing exists, it is the lexical normal form. These functions and canonical, proximate and relative change nothing on the disk; with an error_code they report errors there and throw no filesystem_error; exceptions name the path asked about, the base or no path.", "quantifier": "all paths (absolute for the result), all unchanging Windows disks with links, all answers for the parts about changes and exceptions", "why_tests_cant": "the split between the existing part and the rest depends on the whole disk and on links in it; error paths need failing system calls", "anchors": ["src/fs_ops.cpp: 1603-1652", "src/fs_ops.cpp: 110-230", "include/filesystem/fs_ops.h: 410-459"]}
{"id": "C116", "title": "Windows: operations change only what their name says", "statement": "On Windows, each operation makes only those changing calls its name promises, on the paths given: observers none, remove only deletions of p, rename only the renaming, and so on. resize_file and last_write_time open p only, and change only the file opened, to the size or time given.", "quantifier": "all operations and arguments, all answers of the system", "why_tests_cant": "a test sees that the intended change happened, not that under every sequence of answers no other call is made", "anchors": ["src/fs_ops.cpp: 39-1652", "src/fs_portability.h: 275-321"]}
{"id": "C117", "title": "Windows: no operation runs into undefined behaviour or a failed assertion", "statement": "On Windows, no operation, no increment of an iterator and no question to a directory_entry ends in undefined behaviour or a failed assertion, whatever the system answers within its documented limits; iterators stay usable.", "quantifier": "all operations, arguments a caller may give, all answers within the limits (texts that fit, a last error after a failure, times within 64 bit ticks), all histories of iterators and entries", "why_tests_cant": "undefined behaviour and assertions on rare answers do not show up in tests that run against a healthy system", "anchors": ["src/fs_ops.cpp: 39-1652", "src/fs_dir_iterator.cpp: 23-1031", "src/fs_error.h: 34-43", "src/windows/stat.cpp: 79-177", "src/windows/time.cpp: 19-52"]}
{"id": "C118", "title": "Windows: no history of path operations runs into a fault", "statement": "On Windows, whatever sequence of constructors, assignments, appends, decompositions, modifiers and lexical functions a program applies to its paths, no operation has undefined behaviour or throws.", "quantifier": "all histories of operations over any number of path variables, all texts, both choices of copy elision", "why_tests_cant": "the faults depend on the form in which earlier operations left the elements, not only on the text; tests parse fresh texts", "anchors": ["src/fs_path.cpp: 39-832", "include/filesystem/fs_path.h: 60-560"]}
{"id": "C119", "title": "Every character of a path comes from a given text, a separator or a dot", "statement": "After any sequence of constructors, assignments, appends, decompositions, modifiers and lexical functions, every character of every path and of each of its elements occurs in a text given to some operation, or is the preferred separator, or is '.' and an operation that writes dots was used. In particular texts without null characters give paths without null characters.", "quantifier": "all histories of operations over any number of path variables, all texts, both platforms, both choices of copy elision", "why_tests_cant": "a text of unbounded length and a history of unbounded length", "anchors": ["src/fs_path.cpp: 39-832", "include/filesystem/fs_path.h: 60-560"]}
{"id": "C120", "title": "POSIX: the operating system acts on the whole text of a path", "statement": "Every operation on files hands the operating system the whole text of the paths it was given or made, so that it acts on the file of that name, and the paths, iterators and entries it returns can be used in the same way.", "quantifier": "all operations, iterators, entries, all arguments, all behaviours of the operating system", "why_tests_cant": "texts are handed over with c_str(), which ends at a null character; all of the texts an operation can make, over all answers of the system, have to be known", "anchors": ["src/fs_ops.cpp: 60-1655", "src/posix/stat.cpp: 59-80", "src/fs_dir_iterator.cpp: 97-1034"]}
{"id": "C121", "title": "Every form of source gives the path of its characters", "statement": "Constructing, assigning, appending, concatenating and comparing from a std::string, a pointer, an iterator or a pair of iterators give what the text meant gives: all characters of a string or a range, and what comes before the first null character for a pointer or iterator, whatever lies behind it. Memory behind the end is read only if there is no terminator or the range is longer than the memory. A path made from c_str() of a path has the same text if that has no null character, and otherwise is cut there.", "quantifier": "all texts, all contents of memory, all forms of source, both platforms", "why_tests_cant": "memory of unbounded size; undefined behaviour cannot be observed by a test", "anchors": ["include/filesystem/fs_path.h: 61-177", "include/filesystem/fs_path.h: 270-342", "include/filesystem/fs_path.h: 542-549", "include/filesystem/fs_path.h: 482-502", "src/fs_path.cpp: 129-135", "src/fs_path.cpp: 508-514"]}
{"id": "C122", "title": "Equal paths are interchangeable (POSIX)", "statement": "Two paths are equal exactly if their texts are the same once every run of slashes is made one slash. All observers but native(), c_str() and string() agree on equal paths, and any sequence of operations carried out on equal paths (and with texts that differ in runs of slashes only) gives equal paths.", "quantifier": "all paths, all histories of operations over any number of variables", "why_tests_cant": "histories and texts of unbounded length", "anchors": ["src/fs_path.cpp: 25-832", "include/filesystem/fs_path.h: 60-560"]}
{"id": "C123", "title": "canonical gives the resolved path (POSIX)", "statement": "In a file system that does not change, canonical(p) is the path of what realpath answers for the absolute form of p, or its error is reported. The result is absolute, without . or .. and without final separator; canonical of it is the same path; the canonical forms of two paths are equal exactly if realpath answers the same for both.", "quantifier": "all file systems, all paths", "why_tests_cant": "two paths to one file through any links, directories of any depth", "anchors": ["src/fs_ops.cpp: 39-56, 84-97"]}
{"id": "C124", "title": "relative and proximate lead from the base to the path (POSIX)", "statement": "In a file system that does not change, if weakly_canonical of p and base succeed, relative(p, base) and proximate(p, base) give the shortest way from the one result to the other: up once for every element of the base after the longest common part, then down along p. Looked up in the directory base it is what p names.", "quantifier": "all file systems, all pairs of paths, existing or not", "why_tests_cant": "pairs of paths of unbounded depth in any file system", "anchors": ["include/filesystem/fs_ops.h: 410-459", "src/fs_ops.cpp: 1603-1652", "src/fs_path.cpp: 792-832"]}
{"id": "C125", "title": "What an operation did is what the next one sees (POSIX)", "statement": "On a file system with directories, hard links and symbolic links: after create_directory(p) gave true, status(p) is a directory and a second create_directory(p) gives false without an error; after create_symlink(t, l), read_symlink(l) is t and is_symlink(l); after copy_symlink(a, b), read_symlink(b) is read_symlink(a); after create_hard_link(a, b) of what is not a symbolic link, equivalent(a, b) and hard_link_count is one more; after resize_file(p, n), file_size(q) is n for every q equivalent to p and as before for every other; after permissions(p, m, replace), likewise status(q).permissions(); after remove(p) gave true, symlink_status(p) is not_found, a second remove(p) gives false without an error, and nothing else became different; after rename(a, b), symlink_status(b) is what symlink_status(a) was and a is not found (if a and b were not the same file and their directory parts lead where they led). Otherwise what could be seen before is seen unchanged.", "quantifier": "all file systems (any inodes, entries and links, also ones that no history of calls would make), all paths, all sequences of two calls", "why_tests_cant": "file systems are unbounded; paths through any symbolic links", "anchors": ["src/fs_ops.cpp: 597-624, 690-712, 753-805, 852-996, 1155-1284, 1343-1378"]}
{"id": "C126", "title": "An exception says which operation failed", "statement": "The message of an exception thrown by a library function is `in ` followed by the name of that function, possibly with details after a colon, and what() contains it.", "quantifier": "all throwing overloads and iterator operations on POSIX and Windows, all arguments, all answers of the operating system", "why_tests_cant": "each operation has many failing branches, each reached by particular failures of the system only", "anchors": ["src/fs_error.h: 1-140", "src/filesystem_error.cpp: 14-27", "src/fs_ops.cpp: 60-1655", "src/fs_dir_iterator.cpp: 835-1034"]}
{"id": "C127", "title": "Windows: equal paths are interchangeable", "statement": "If two paths on Windows are equal, all observers other than native(), c_str() and string() give the same for both. The operations /=, +=, remove_filename, replace_filename, replace_extension, relative_path, root_path, parent_path, lexically_normal and lexically_relative, done on both with equal arguments, give equal paths.", "quantifier": "all pairs of texts with equal paths, whatever separators they are written with, all equal arguments", "why_tests_cant": "a path has infinitely many spellings (runs of separators, both kinds of separator), and an operation may depend on the spelling in rare cases, such as names with a colon", "anchors": ["src/fs_path.cpp: 121-832", "include/filesystem/fs_path.h: 130-300"]}
{"id": "C128", "title": "create_directories on a file system with links (POSIX)", "statement": "Whatever comes of create_directories(p) (a value, an error or an exception), what could be seen of the file system before is seen unchanged. If it reports no error, p and all its prefixes are found and are directories; it gives false only if nothing was changed, true only if one of them was missing, and a second call gives false and does nothing. If each prefix is a directory or nothing at all and there is room, no error is reported.", "quantifier": "all file systems with directories, hard links and symbolic links (any inodes and entries), all paths", "why_tests_cant": "whether a prefix is found depends on links and on the directories just made; the combinations of links, dots and missing prefixes are unbounded", "anchors": ["src/fs_ops.cpp: 630-688"]}
{"id": "C129", "title": "remove_all on a file system with links (POSIX)", "statement": "Whatever is on the file system and however remove_all(p) ends, what can be seen of it afterwards was there before and is the same. If p names a tree (a file, a link, or a directory whose directories are entered nowhere else), remove_all succeeds and gives the number of files in the tree, nothing is at p afterwards, and every other path has the status it has when just the entry p is taken out of its directory: targets of links in the tree, and files that have another name outside, stay. If there is nothing at p, it does nothing and gives 0.", "quantifier": "all file systems with directories, hard links and symbolic links (any inodes and entries), all trees of any depth and width, all paths", "why_tests_cant": "which files a removal touches depends on links, on names and on what has been removed before; trees and links are unbounded", "anchors": ["src/fs_ops.cpp: 1290-1337"]}
{"id": "C130", "title": "A listing shows what is there (POSIX, file system with links)", "statement": "If status(p) reports a directory, iterating directory_iterator(p) ends without an error and gives a list without repetitions of paths p / name (name neither . nor ..), and p / name is in it exactly if symlink_status(p / name) finds something; is_empty(p) is true exactly if the list is empty; nothing is changed and no directory stream stays open. This holds also when p leads to the directory through symbolic links. If status(p) reports an error, the listing reports the same error; if p is something else than a directory, ENOTDIR; is_empty of a regular file is file_size == 0.", "quantifier": "all file systems with directories, hard links and symbolic links that any sequence of operations can produce, all paths, all listing options", "why_tests_cant": "directories, their sizes and the links on the way are unbounded; the claim relates two different operations on every name", "anchors": ["src/fs_dir_iterator.cpp: DirectoryStream, directory_iterator", "src/fs_ops.cpp: 1002-1045"]}
{"id": "C131", "title": "A recursive listing shows what is there (POSIX, file system with links)", "statement": "If status(p) reports a directory below which the directories do not nest without end, iterating recursive_directory_iterator(p) (options without follow_directory_symlink) ends without an error, gives no path twice, and gives q with depth() k exactly if q can be reached as p / n0 / ... / nk, where symlink_status finds something at every step and a directory at every step but the last. Nothing is changed and no directory stream stays open.", "quantifier": "all file systems with directories, hard links and symbolic links that any sequence of operations can produce, all paths, all listing options but follow_directory_symlink", "why_tests_cant": "trees, their depth and the position of links in listings are unbounded; the claim relates the walk to another operation on every path", "anchors": ["src/fs_dir_iterator.cpp: 861-1034"]}
{"id": "C132", "title": "copy_file copies or changes nothing (POSIX, file system with links)", "statement": "On a file system with directories, hard links and symbolic links, however the system splits reads and sendfile: copy_file(a, b, options) ends and closes what it opened. Either it returns false and nothing has changed, or it returns true without an error; then b is a regular file with the contents, the size and the permissions of a, the contents of a are as before, and contents, status and symlink_status of every path that was not equivalent to b are as before. It returns true if symlink_status(a) is a regular file and either a symbolic link could be created at b, or b is another regular file by symlink_status and overwrite_existing (without skip_existing and update_existing) is given.", "quantifier": "all file systems, all paths, all options, all contents, all schedules of partial transfers, with and without sendfile", "why_tests_cant": "files, schedules and link structures are unbounded; the claim is about every other path too", "anchors": ["src/fs_ops.cpp: 298-595"]}
{"id": "C133", "title": "Windows: the operating system acts on the whole text of a path", "statement": "On Windows, every operation on files, every function that resolves a path and every question asked to a directory entry hands the system the whole text of the paths it was given or made, also where permissions are read and written, and the paths, iterators and entries it returns can be used in the same way.", "quantifier": "all operations, iterators, entries and functions that resolve paths, all arguments, all behaviours of the operating system", "why_tests_cant": "texts are handed over with wstring().c_str(), which ends at a null character; all of the texts an operation can make (search patterns, link targets, joined names), over all answers of the system, have to be known", "anchors": ["src/fs_ops.cpp: 39-1655", "src/fs_dir_iterator.cpp: 97-1034", "src/windows/permissions.cpp: 325-632"]}
{"id": "C134", "title": "copy copies a file, or makes the link asked for, or changes nothing, on a file system with links", "statement": "copy(a, b, options) of a regular file ends with all descriptors closed and either changes nothing, or reports no error and has made b (or the name of a in the directory b) a regular file with the contents, size and permissions of a, everything else being as it was. With create_symlinks a success has made b a symbolic link that reads as a; with create_hard_links b is then the same file as a, counted once more; with copy_symlinks the copy of a symbolic link reads as the link does; skip_symlinks and directories_only pass such a source over and change nothing. Without options that look at links, copying a file onto itself is an error that changes nothing. It succeeds whenever the operation on the one file or link would on a free name.", "quantifier": "all POSIX file systems with links and open files, all paths, options and splittings of the transfer by the system", "why_tests_cant": "which file an option makes copy look at, and what it then leaves behind, depends on links, existing files and hard links between the two; tests fix one arrangement of them", "anchors": ["src/fs_ops.cpp: 176-296", "src/fs_ops.cpp: 299-595", "src/fs_ops.cpp: 597-624"]}
{"id": "C135", "title": "An operation that fails has changed nothing, and one that succeeds has made the change", "statement": "If an operation reports an error, throws, or (create_directory, remove, copy_file) returns false, no call that changes a file, a directory or the working directory has succeeded; and if an operation that is named for a change (create_directory, create_symlink, create_directory_symlink, create_hard_link, copy_symlink, current_path(p), last_write_time(p, t), permissions, remove, rename, resize_file) reports success, such a call has succeeded.", "quantifier": "all operations, arguments and overloads; any answers of the operating system, on POSIX and Windows", "why_tests_cant": "the failures that matter come between two system calls or from a system that refuses one of them; tests run against a file system that grants nearly everything", "anchors": ["src/fs_ops.cpp: 418-624", "src/fs_ops.cpp: 630-805", "src/fs_ops.cpp: 1081-1208", "src/fs_ops.cpp: 1240-1378"]}
{"id": "C136", "title": "No failure of a system call is passed over", "statement": "If a system call made by an operation fails, and the failure is not itself an answer to what was asked (no such file, for stat and remove; the directory is there, for mkdir), then the operation fails: it throws, or sets the error code. Without skip_permission_denied this holds for directory iterators too.", "quantifier": "all operations, arguments and overloads; every sequence of answers of the operating system", "why_tests_cant": "it takes a system that fails each call in turn, with each error; the tests meet a few of these failures", "anchors": ["src/fs_ops.cpp: 176-296", "src/fs_ops.cpp: 330-624", "src/fs_ops.cpp: 1002-1378", "src/fs_ops.cpp: 1603-1652", "src/fs_dir_iterator.cpp: 574-650", "src/fs_dir_iterator.cpp: 771-868"]}
{"id": "C137", "title": "An error that is reported is one that the system gave", "statement": "Every error code that an operation reports, or that its exception carries, is one that a system call gave during this very call of the operation, or one of the few that the operation reports of its own: ENOTSUP and EISDIR for file_size, EOVERFLOW for last_write_time, and so on. An error is never left over from before the call, and never made up. status, symlink_status and the predicates have no errors of their own. The same holds for every call of a directory_entry. (POSIX)", "quantifier": "all 38 operations, arguments and overloads; every value of the error code before the call; every sequence of answers of the operating system", "why_tests_cant": "it is about every error at every call; the tests provoke a few, and compare them with the error expected on one system", "anchors": ["src/fs_ops.cpp: 176-296", "src/fs_ops.cpp: 330-1378", "src/fs_ops.cpp: 1603-1652", "src/fs_dir_iterator.cpp: 574-868"]}
