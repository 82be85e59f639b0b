{
 "claims": [
  {
   "property": "C01",
   "status": "proved",
   "theorems": [
    "Asap.c01_parse"
   ],
   "note": "Every string is accepted and decomposes as the grammar says (POSIX)."
  },
  {
   "property": "C02",
   "status": "proved",
   "theorems": [
    "Asap.c02_reparse",
    "Asap.c02_alike"
   ],
   "note": "Over all values reachable by histories without an eliding parent_path."
  },
  {
   "property": "C03",
   "status": "proved",
   "theorems": [
    "Asap.c03_decomposition"
   ],
   "note": ""
  },
  {
   "property": "C04",
   "status": "proved",
   "theorems": [
    "Asap.c04_parent"
   ],
   "note": ""
  },
  {
   "property": "C05",
   "status": "proved",
   "theorems": [
    "Asap.c05_stem_extension"
   ],
   "note": ""
  },
  {
   "property": "C06",
   "status": "proved",
   "theorems": [
    "Asap.c06_append_text",
    "Asap.c06_append_elements",
    "Asap.c06_append_assoc"
   ],
   "note": ""
  },
  {
   "property": "C07",
   "status": "proved",
   "theorems": [
    "Asap.c07_compare",
    "Asap.c07_total_order"
   ],
   "note": ""
  },
  {
   "property": "C08",
   "status": "proved",
   "theorems": [
    "Asap.c08_hash"
   ],
   "note": ""
  },
  {
   "property": "C09",
   "status": "proved",
   "theorems": [
    "Asap.c09_concat"
   ],
   "note": ""
  },
  {
   "property": "C10",
   "status": "proved",
   "theorems": [
    "Asap.c10_generic"
   ],
   "note": ""
  },
  {
   "property": "C11",
   "status": "proved",
   "theorems": [
    "Asap.c11_stream"
   ],
   "note": ""
  },
  {
   "property": "C12",
   "status": "proved",
   "theorems": [
    "Asap.c12_iterator"
   ],
   "note": ""
  },
  {
   "property": "C13",
   "status": "proved",
   "theorems": [
    "Asap.c13_normal"
   ],
   "note": ""
  },
  {
   "property": "C14",
   "status": "proved",
   "theorems": [
    "Asap.c14_idempotent"
   ],
   "note": ""
  },
  {
   "property": "C15",
   "status": "proved",
   "theorems": [
    "Asap.c15_denotation"
   ],
   "note": ""
  },
  {
   "property": "C16",
   "status": "partial",
   "theorems": [
    "Asap.c16_relative_partial",
    "Asap.c16_violated"
   ],
   "note": "False as stated: the base's trailing empty element and '..' are miscounted; c16_violated proves it, the partial theorem covers bases without '..' or a trailing separator after the common prefix."
  },
  {
   "property": "C17",
   "status": "proved",
   "theorems": [
    "Asap.c17_proximate",
    "Asap.c17_unrelated"
   ],
   "note": ""
  },
  {
   "property": "C18",
   "status": "partial",
   "theorems": [
    "Asap.c18_remove_filename_partial",
    "Asap.c18_violated"
   ],
   "note": "Undefined behaviour on the normal form of '../'; proved for all other reachable values."
  },
  {
   "property": "C19",
   "status": "partial",
   "theorems": [
    "Asap.c19_replace_extension_partial",
    "Asap.c19_violated_alias"
   ],
   "note": "False for p.replace_extension(p); proved for a distinct argument."
  },
  {
   "property": "C20",
   "status": "partial",
   "theorems": [
    "Asap.c20_no_fault_partial",
    "Asap.c20_fault_partial",
    "Asap.c20_violated"
   ],
   "note": "False: '../' normalised then remove_filename; eliding parent_path. Proved for all other histories."
  },
  {
   "property": "C21",
   "status": "partial",
   "theorems": [
    "Asap.c21_parent_terminates_partial",
    "Asap.c21_violated"
   ],
   "note": "False with copy elision in parent_path for '///a/b'; proved without."
  },
  {
   "property": "C22",
   "status": "proved",
   "theorems": [
    "Asap.c22_absolute"
   ],
   "note": ""
  },
  {
   "property": "C23",
   "status": "partial",
   "theorems": [
    "Asap.c23_overloads_agree_partial",
    "Asap.c23_exceptional_partial",
    "Asap.c23_same_effects_partial",
    "Asap.c23_status",
    "Asap.c23_violated"
   ],
   "note": "All operations and OS answers, except canonical, weakly_canonical, proximate, relative (false if getcwd fails: c23_violated) and create_directories; those under the stated OS assumptions."
  },
  {
   "property": "C24",
   "status": "partial",
   "theorems": [
    "Asap.c24_no_throw_partial",
    "Asap.c24_exceptional_partial",
    "Asap.c24_status",
    "Asap.c24_violated"
   ],
   "note": "False for proximate(p,ec), relative(p,ec) and create_directories(p,ec): c24_violated. All other operations and OS answers proved."
  },
  {
   "property": "C25",
   "status": "proved",
   "theorems": [
    "Asap.c25_copy_file",
    "Asap.c25_touched"
   ],
   "note": ""
  },
  {
   "property": "C26",
   "status": "partial",
   "theorems": [
    "Asap.c26_copy_file_partial",
    "Asap.c26_violated"
   ],
   "note": "False: short writes are ignored, and with sendfile a source whose reported size is wrong (0 in /proc) is copied incompletely, both with result true. Proved: exact copy for every schedule of partial sendfile/read results and fallbacks if writes are complete and the size is right."
  },
  {
   "property": "C27",
   "status": "partial",
   "theorems": [
    "Asap.c27_terminates_partial",
    "Asap.c27_violated"
   ],
   "note": "False: sendfile answering 0 for a source truncated after lstat is repeated for ever. Proved: termination within source length + 1 rounds if the source is at least as long as reported."
  },
  {
   "property": "C28",
   "status": "partial",
   "theorems": [
    "Asap.c28_chain_partial",
    "Asap.c28_again_partial",
    "Asap.c28_succeeds_partial",
    "Asap.c28_violated",
    "Asap.c28_elided_violated"
   ],
   "note": "False as stated: a trailing slash makes it do nothing, an existing regular file is taken for a directory without an error, and a dangling link gives true although nothing was created (c28_violated). With a compiler that elides the copy in parent_path (clang), create_directories('//a/b') never ends and '///a/b' throws std::out_of_range (c28_elided_violated). Proved for paths ending in a name, without other processes and dangling links (prefixes that contain .. may turn out to be files once a directory before the .. was made), and under elision for paths beginning with no more slashes than the first name has characters."
  },
  {
   "property": "C29",
   "status": "partial",
   "theorems": [
    "Asap.c29_create_directory_partial",
    "Asap.c29_violated"
   ],
   "note": "False: an existing regular file gives false without error. Proved: one mkdir, true iff it succeeded, false without error iff EEXIST, every other error reported."
  },
  {
   "property": "C30",
   "status": "proved",
   "theorems": [
    "Asap.c30_remove_all",
    "Asap.removing_total"
   ],
   "note": "For every tree, by a kernel with a tree at p and directory streams: lstat, opendir, readdir, remove as specified, every other call arbitrary. The count is modulo 2^64. p is named so that the last component is not resolved through a link: 'link/' is outside the kernel assumption."
  },
  {
   "property": "C31",
   "status": "partial",
   "theorems": [
    "Asap.c31_partial",
    "Asap.c31_violated",
    "Asap.c31_empty"
   ],
   "note": "False: a file vanishing during the walk makes remove_all return 0 or 2^64-1 without an error (c31_violated). Proved for every execution in which no call answers ENOENT; reported errors are always answers of some call."
  },
  {
   "property": "C32",
   "status": "proved",
   "theorems": [
    "Asap.c32_remove"
   ],
   "note": "At the level of system calls: for every OS behaviour."
  },
  {
   "property": "C33",
   "status": "proved",
   "theorems": [
    "Asap.c33_permissions",
    "Asap.c33_options"
   ],
   "note": "c33_options: none or several of replace, add and remove fail an assertion before any call. "
  },
  {
   "property": "C34",
   "status": "partial",
   "theorems": [
    "Asap.c34_permission_bits_partial",
    "Asap.c34_violated"
   ],
   "note": "False: set_gid and sticky_bit are 0 (octal typo), so these two bits can never be requested or reported; the other bits proved."
  },
  {
   "property": "C35",
   "status": "partial",
   "theorems": [
    "Asap.c35_space_partial",
    "Asap.c35_violated"
   ],
   "note": "False: a count of zero blocks (a full file system) is reported as uintmax_t(-1) bytes. Proved: exact values for all non-zero counts, saturation exactly when the product does not fit, error reporting."
  },
  {
   "property": "C36",
   "status": "proved",
   "theorems": [
    "Asap.c36_last_write_time"
   ],
   "note": ""
  },
  {
   "property": "C37",
   "status": "partial",
   "theorems": [
    "Asap.c37_exact_partial",
    "Asap.c37_violated"
   ],
   "note": "False: a time stamp outside the range of file_time_type is signed overflow (undefined behaviour) instead of value_too_large. Proved: exact and free of overflow for every representable time stamp."
  },
  {
   "property": "C38",
   "status": "proved",
   "theorems": [
    "Asap.c38_status",
    "Asap.c38_predicates",
    "Asap.c38_path_predicates"
   ],
   "note": ""
  },
  {
   "property": "C39",
   "status": "proved",
   "theorems": [
    "Asap.c39_equivalent"
   ],
   "note": ""
  },
  {
   "property": "C40",
   "status": "proved",
   "theorems": [
    "Asap.c40_temp_directory_path"
   ],
   "note": ""
  },
  {
   "property": "C41",
   "status": "partial",
   "theorems": [
    "Asap.c41_weakly_canonical_partial",
    "Asap.c41_violated"
   ],
   "note": "False: if the existing prefix cannot be resolved the result is the empty path without error. Proved: the result when the prefix resolves."
  },
  {
   "property": "C42",
   "status": "proved",
   "theorems": [
    "Asap.c42_directory_iterator"
   ],
   "note": ""
  },
  {
   "property": "C43",
   "status": "partial",
   "theorems": [
    "Asap.c43_visits_partial",
    "Asap.c43_violated",
    "Asap.c43_unknown_type"
   ],
   "note": "Violated: a directory read after a symbolic link in the same listing is not entered, and DT_UNKNOWN entries end the walk with ENOENT; both proved with witnesses. c43_visits_partial proves the claim for every other tree (any depth and width), with termination and all handles closed. c46_session gives the exact walk on all trees."
  },
  {
   "property": "C44",
   "status": "partial",
   "theorems": [
    "Asap.c44_flat_partial",
    "Asap.c44_violated"
   ],
   "note": "Violated by every execution: with follow_directory_symlink no directory but the root is ever opened. Proved: every history then sees exactly the entries of the root directory, as if the directories below were empty."
  },
  {
   "property": "C45",
   "status": "proved",
   "theorems": [
    "Asap.c45_skip",
    "Asap.c45_report",
    "Asap.c42_directory_iterator"
   ],
   "note": "For every unchanging tree and every history. c45_report needs no skip option: it covers every error left in the listing; without the option every refused directory is one. Options without follow_directory_symlink (with it no directory but the root is opened, c44_violated)."
  },
  {
   "property": "C46",
   "status": "proved",
   "theorems": [
    "Asap.c46_session",
    "Asap.c44_flat_partial"
   ],
   "note": "All histories of increment, pop and disable_recursion_pending over all trees, against a listing with positions. pop keeps the pending flag, as the specification function says. c44_flat_partial is the same for iterators with follow_directory_symlink. Assumes names are names, readdir never reports EACCES."
  },
  {
   "property": "C47",
   "status": "partial",
   "theorems": [
    "Asap.c47_recursive",
    "Asap.c47_directory",
    "Asap.c47_shared_partial",
    "Asap.c47_violated"
   ],
   "note": "Single-owner iterators, throwing and error_code forms: no leak, no double close, no read of a closed or null handle. Any number of copies, assignments, moves (error_code forms): no leak, no double close, no read of a closed handle; a null stream is read only by clients incrementing a stale copy, which c47_violated shows happens."
  },
  {
   "property": "C48",
   "status": "partial",
   "theorems": [
    "Asap.c48_refreshed_partial",
    "Asap.c48_constructed_partial",
    "Asap.c48_iterated_partial",
    "Asap.c48_violated",
    "Asap.c48_violated_exists",
    "Asap.c48_violated_is",
    "Asap.c48_violated_missing",
    "Asap.c48_violated_symlink",
    "Asap.c48_violated_links",
    "Asap.c48_violated_size",
    "Asap.c48_violated_status",
    "Asap.c48_violated_iterated",
    "Asap.c48_refresh_fails",
    "Asap.c48_late_size",
    "Asap.c48_violated_dangling"
   ],
   "note": "False of the code in many ways, each proved for all files: exists(ec) and the type predicates with an error_code are always false, exists() throws for missing files, is_symlink() is false for links, hard_link_count() is -1, file_size() of a directory is -1 without error, status() lacks the permissions, an iterated dangling link makes exists() throw (c48_violated_dangling), and all but the type predicates fail an assertion on entries just obtained by iteration. The partial theorems: for every history of observers on an existing file, exists() and type predicates without error_code, is_symlink of non-links, file_size of regular files and last_write_time agree with the free functions."
  },
  {
   "property": "C49",
   "status": "proved",
   "theorems": [
    "Asap.c49_copy",
    "Asap.c49_quiet"
   ],
   "note": "The whole decision of copy for every option set, file type and OS answer, with the calls of each action; c49_quiet: nothing modified in rejected or skip cases. Assumes answered inode numbers are not 0 and names in listings are names. A symbolic link is copied also with create_symlinks alone, and a directory is copied with all contents without the recursive option; the specification says so."
  },
  {
   "property": "C50",
   "status": "partial",
   "theorems": [
    "Asap.c50_copy_partial",
    "Asap.copying_total",
    "Asap.c50_violated"
   ],
   "note": "For every tree of directories, files (with contents) and, with copy_symlinks, links, with failures of any call and partial reads. False when the destination is inside the source: copy then makes directories without end (c50_violated). Assumes writes are full (c26_violated) and listings do not break off (c51_violated)."
  },
  {
   "property": "C51",
   "status": "partial",
   "theorems": [
    "Asap.c51_first_partial",
    "Asap.c51_violated"
   ],
   "note": "False: an error of any reading after the first entry is lost and success is reported (c51_violated). Proved: errors of opening the directory and of reading up to its first entry are reported."
  },
  {
   "property": "C52",
   "status": "partial",
   "theorems": [
    "Asap.c52_paths_partial",
    "Asap.c52_status_paths",
    "Asap.c52_copy_file_swapped",
    "Asap.c52_others",
    "Asap.c52_copy_partial",
    "Asap.c52_relative_partial",
    "Asap.c52_what_partial",
    "Asap.c52_violated"
   ],
   "note": "Exact paths for all operations except copy, copy_file, copy_symlink, absolute, canonical and their callers, for which the paths they do carry are stated; copy_file exchanges the paths; what() omits the first of two paths (c52_violated)."
  },
  {
   "property": "C53",
   "status": "partial",
   "theorems": [
    "Asap.c53_operators",
    "Asap.c53_laws",
    "Asap.c53_flags_partial",
    "Asap.c53_violated"
   ],
   "note": "False for two perms constants with value 0; all operators and the flags of the other enums proved."
  },
  {
   "property": "C54",
   "status": "proved",
   "theorems": [
    "Asap.c54_file_size",
    "Asap.c54_is_empty"
   ],
   "note": ""
  },
  {
   "property": "C55",
   "status": "proved",
   "theorems": [
    "Asap.c55_one_call",
    "Asap.c55_read_symlink",
    "Asap.c55_resize_too_large"
   ],
   "note": ""
  },
  {
   "property": "C56",
   "status": "proved",
   "theorems": [
    "Asap.c56_descriptors"
   ],
   "note": ""
  },
  {
   "property": "C57",
   "status": "partial",
   "theorems": [
    "Asap.c57_parse",
    "Asap.c57_decompose",
    "Asap.c57_partition_partial",
    "Asap.c57_append",
    "Asap.c57_equal",
    "Asap.c57_rejoin_partial",
    "Asap.c57_reparse",
    "Asap.c57_violated",
    "Asap.c57_preferred_partial",
    "Asap.c57_violated_preferred"
   ],
   "note": "every text: parsing total, elements, root name/directory/path, relative path, filename, is_absolute, append, equality are the specified functions of the text. Partition and root_path()/relative_path()==p hold unless the relative part looks like a drive (C:D:x) or the path is a bare //host; c57_violated shows those cases fail. make_preferred keeps the elements unless the text begins with a mixed pair of slashes (c57_violated_preferred)."
  },
  {
   "property": "C58",
   "status": "partial",
   "theorems": [
    "Asap.c58_from",
    "Asap.c58_to_partial",
    "Asap.c58_round_trip_partial",
    "Asap.c58_violated"
   ],
   "note": "Reading a FILETIME is proved for all 2^64 values (floor to the second, overflow exactly when the second is not representable), for any clock period. Writing and the round trip are proved from 1970 to 2^63 ns later; c58_violated: times before 1970 are rejected though after 1601, and both directions overflow within the range of file_time_type on MSVC."
  },
  {
   "property": "C59",
   "status": "partial",
   "theorems": [
    "Asap.c59_exact",
    "Asap.c59_partial",
    "Asap.c59_readOnly",
    "Asap.c59_map",
    "Asap.c59_map_oob",
    "Asap.c59_flagTest",
    "Asap.c59_violated",
    "Asap.c59_map_bounds",
    "Asap.c59_failure"
   ],
   "note": "Under the stated model of the Windows access check, c59_exact says for every permission set exactly when reading back gives what was set; c59_partial is the nested case; c59_violated gives sets for which it does not."
  },
  {
   "property": "C60",
   "status": "partial",
   "theorems": [
    "Asap.c60_throwing",
    "Asap.c60_terminates",
    "Asap.c60_cycle_reported",
    "Asap.c60_error_code_partial",
    "Asap.c60_result_partial",
    "Asap.c60_violated",
    "Asap.c60_dot"
   ],
   "note": "Throwing form: at most 40 links, the 40th throws too_many_symbolic_link_levels, no undefined operation, terminates (all file system answers). Error code form: only while fewer than 40 links are read; c60_violated: with a link C:\\\\a -> a\\\\..\\\\a it never returns. Result free of '.', '..' and links when names have no colon and links are not drive-relative. do_absolute is not part of the model of this function; it is in C105."
  },
  {
   "property": "C61",
   "status": "proved",
   "theorems": [
    "Asap.c61_within"
   ],
   "note": "Assumes names in listings are names (non-empty, no slash)."
  },
  {
   "property": "C62",
   "status": "partial",
   "theorems": [
    "Asap.c62_copy_symlink_partial",
    "Asap.c62_violated"
   ],
   "note": "Every execution; the text is kept unless it consists of several slashes ('//' becomes '/', c62_violated). Assumes PATH_MAX > 0 and that the text fits."
  },
  {
   "property": "C63",
   "status": "partial",
   "theorems": [
    "Asap.c63_recheck_partial",
    "Asap.c63_violated"
   ],
   "note": "Nothing is altered before the destination name was examined again and found the same; but the second look is at the name, not the descriptor, so an exchange in between is not noticed (c63_violated)."
  },
  {
   "property": "C64",
   "status": "partial",
   "theorems": [
    "Asap.c64_copies_partial",
    "Asap.c64_violated"
   ],
   "note": "False for links: a source link is refused and a destination link gives EBADF (c64_violated). Proved for names that are not links."
  },
  {
   "property": "C65",
   "status": "proved",
   "theorems": [
    "Asap.c65_status",
    "Asap.c65_symlink_status",
    "Asap.c65_exists",
    "Asap.c65_is_directory",
    "Asap.c65_is_symlink"
   ],
   "note": "Every execution against an abstract unchanging disk (WinLaw); with a system that fails only where there is nothing, the exact type. If the tag of a reparse point cannot be read, symlink_status gives reparse_file with the error."
  },
  {
   "property": "C66",
   "status": "proved",
   "theorems": [
    "Asap.c66_equivalent",
    "Asap.c66_relation"
   ],
   "note": "Every execution against an abstract unchanging disk on which volume and index identify a file."
  },
  {
   "property": "C67",
   "status": "partial",
   "theorems": [
    "Asap.c67_file_size_partial",
    "Asap.c67_file_size_of_link",
    "Asap.c67_violated",
    "Asap.c67_hard_link_count"
   ],
   "note": "file_size does not follow links: of a link to a file it is the size of the link itself (c67_violated). Exact for other paths; hard_link_count is exact for all."
  },
  {
   "property": "C68",
   "status": "partial",
   "theorems": [
    "Asap.c68_round_trip_partial",
    "Asap.c68_read"
   ],
   "note": "For times from 1970 on whose nanoseconds fit 63 bits; others are refused or overflow (C58)."
  },
  {
   "property": "C69",
   "status": "partial",
   "theorems": [
    "Asap.c69_read_symlink_partial",
    "Asap.c69_violated"
   ],
   "note": "Exact for symbolic links; the text of a mount point (junction) is read two characters too far (c69_violated)."
  },
  {
   "property": "C70",
   "status": "partial",
   "theorems": [
    "Asap.c70_remove_partial",
    "Asap.c70_calls",
    "Asap.c70_violated"
   ],
   "note": "True without interference; a file vanishing between the two calls counts as removed, and a missing parent is an error (c70_violated)."
  },
  {
   "property": "C71",
   "status": "partial",
   "theorems": [
    "Asap.c71_create_directory_partial",
    "Asap.c71_template_partial",
    "Asap.c71_violated"
   ],
   "note": "An existing file is taken for a directory; the form with a template always returns true (c71_violated)."
  },
  {
   "property": "C72",
   "status": "partial",
   "theorems": [
    "Asap.c72_one_call",
    "Asap.c72_rename_partial",
    "Asap.c72_violated",
    "Asap.c72_resize_file"
   ],
   "note": "rename reports GetLastError() after a failure of the C library and fails an assertion if that is 0 (c72_violated)."
  },
  {
   "property": "C73",
   "status": "proved",
   "theorems": [
    "Asap.c73_observers",
    "Asap.c73_entry",
    "Asap.c73_iterators"
   ],
   "note": "Every execution, both overloads, no assumption on the system."
  },
  {
   "property": "C74",
   "status": "partial",
   "theorems": [
    "Asap.c74_copy_file_partial",
    "Asap.c74_violated_update",
    "Asap.c74_violated_equal",
    "Asap.c74_violated_same"
   ],
   "note": "Proved of every execution over an unchanging disk, with 'newer' meaning: the destination's time in whole seconds is not later than the source's. False as documented: a destination newer within the same second, or of equal time, is replaced (c74_violated_update, c74_violated_equal); an error of equivalent is ignored and a file copied onto itself (c74_violated_same). Fault (overflow of the time) possible with update_existing only."
  },
  {
   "property": "C75",
   "status": "proved",
   "theorems": [
    "Asap.c75_observers",
    "Asap.c75_modifiers",
    "Asap.c75_entry"
   ],
   "note": "Every execution, both overloads; assumes that the system does not give out an open handle again. Handles of FindFirstFileW are the subject of C77."
  },
  {
   "property": "C76",
   "status": "partial",
   "theorems": [
    "Asap.c76_overloads_agree_partial",
    "Asap.c76_same_effects_partial",
    "Asap.c76_no_throw_partial",
    "Asap.c76_status",
    "Asap.c76_violated_status",
    "Asap.c76_violated_space"
   ],
   "note": "Every operation except status, symlink_status, exists, is_directory, is_symlink (their throwing forms do not throw when the file cannot be examined: c76_violated_status; what they return agrees, c76_status) and space (with an error_code it throws if the working directory cannot be read: c76_violated_space)."
  },
  {
   "property": "C77",
   "status": "proved",
   "theorems": [
    "Asap.c77_recursive",
    "Asap.c77_directory",
    "Asap.c77_operations"
   ],
   "note": "Every execution, both overloads, any set of handles already open; an iterator has one owner. Assumes that the system does not give out an open handle again. An execution that ends in undefined behaviour is only shown not to have misused a handle before."
  },
  {
   "property": "C78",
   "status": "partial",
   "theorems": [
    "Asap.c78_listing_partial",
    "Asap.c78_violated"
   ],
   "note": "Every execution for every directory text: what is seen and what is reported. Violated: if only . and .. are found the error of the search is replaced by the last error after FindClose; an empty root directory is an error; the empty path lists the root of the current drive. Names are read as any text; the path shown is checked by its elements."
  },
  {
   "property": "C79",
   "status": "partial",
   "theorems": [
    "Asap.c79_session",
    "Asap.c79_visits_partial",
    "Asap.c79_violated",
    "Asap.c79_violated_junction",
    "Asap.c79_violated_follow"
   ],
   "note": "Every history over every tree is described exactly (c79_session); the depth-first listing holds for trees without directory links and without a link before a directory. Violated: a directory after a link is not entered; junctions are entered without the option, and a junction to its own directory makes the walk endless (for every m); with follow_directory_symlink nothing is entered. Assumes an unchanging tree and that FindClose leaves the last error alone."
  },
  {
   "property": "C80",
   "status": "partial",
   "theorems": [
    "Asap.c80_hard_link_count_partial",
    "Asap.c80_status_partial",
    "Asap.c80_status_perms",
    "Asap.c80_type_partial",
    "Asap.c80_is_symlink_partial",
    "Asap.c80_violated_size",
    "Asap.c80_violated_time",
    "Asap.c80_violated_gone",
    "Asap.c80_violated_symlink_status",
    "Asap.c80_violated_status",
    "Asap.c80_violated_code",
    "Asap.c80_violated_follow",
    "Asap.c80_violated_is_symlink",
    "Asap.c80_violated_construct",
    "Asap.c80_made_directory_partial",
    "Asap.c80_made_link_partial",
    "Asap.c80_violated_construct_link",
    "Asap.c80_late_directory_partial",
    "Asap.c80_late_violated",
    "Asap.c80_refresh_anew"
   ],
   "note": "Holds for hard_link_count, for type and permissions of status, and without a code for the predicates, for entries that are no reparse points; is_symlink for all but directories. Violated (each for every execution, not only a witness): file_size is -1 with a clear code; last_write_time is an error; symlink_status has no permissions; status of a link is of the link; with a code exists and is_* are false; without one a link to a file is not a regular file; a directory link is not a link; status of a vanished file fails an assertion; directory_entry(p) of a plain file or of a directory link fails. Entries made for directories and for links to files: c80_made_directory_partial, c80_made_link_partial (type, size and time are not those of the goal). Entries made before their file exists and asked later: c80_late_directory_partial; for a plain file every question with a code but the predicates fails an assertion (c80_late_violated)."
  },
  {
   "property": "C81",
   "status": "proved",
   "theorems": [
    "Asap.c81_within"
   ],
   "note": "For every trace with listed names being names. WinWithin admits a listing of x only directly after getAttrs and getPerms of x answering directory and no reparse point."
  },
  {
   "property": "C82",
   "status": "partial",
   "theorems": [
    "Asap.c82_partial",
    "Asap.c82_violated"
   ],
   "note": "Holds if no call answered that a file is missing. Violated otherwise: a file vanishing before it is examined gives 0 without error though p remains; vanishing before removal gives -1 without error; vanishing while being removed counts; a missing parent directory (3) is an error instead of 0."
  },
  {
   "property": "C83",
   "status": "partial",
   "theorems": [
    "Asap.c83_chain_partial",
    "Asap.c83_succeeds_partial",
    "Asap.c83_violated"
   ],
   "note": "Proved for paths of plain names that do not end with a separator, if no other process interferes and no link leads nowhere. Violated: with a separator at the end nothing is done and there is no error; an existing regular file is no error; ERROR_ALREADY_EXISTS counts as created."
  },
  {
   "property": "C84",
   "status": "proved",
   "theorems": [
    "Asap.c84_permissions",
    "Asap.c84_options"
   ],
   "note": "nofollow makes no difference to the request (SetPermissions ignores it), only the file examined is the link itself. A system that answers the value perms::unknown makes an assertion fail."
  },
  {
   "property": "C85",
   "status": "partial",
   "theorems": [
    "Asap.c85_absolute_partial",
    "Asap.c85_violated"
   ],
   "note": "Absolute if the working directory has a root name and a root directory and p names no other drive. Violated: D:foo with a working directory on C: stays as it is; a working directory that grows between the two calls is undefined behaviour."
  },
  {
   "property": "C86",
   "status": "partial",
   "theorems": [
    "Asap.c86_space_partial",
    "Asap.c86_violated"
   ],
   "note": "Exact for absolute paths, but the directory that contains p is asked about. Violated: 0 becomes -1; the values of a mounted volume are those of the volume around it; an exception is thrown if the working directory cannot be found."
  },
  {
   "property": "C87",
   "status": "partial",
   "theorems": [
    "Asap.c87_temp_partial",
    "Asap.c87_violated"
   ],
   "note": "Holds except when the text does not fit the buffer: then an assertion fails."
  },
  {
   "property": "C88",
   "status": "proved",
   "theorems": [
    "Asap.c88_copies",
    "Asap.c88_copy",
    "Asap.c88_sole",
    "Asap.c88_sole_dir"
   ],
   "note": "error_code forms. c88_sole is an equality of programs between the model with a heap and the model of one iterator."
  },
  {
   "property": "C89",
   "status": "proved",
   "theorems": [
    "Asap.c89_compare",
    "Asap.c89_texts",
    "Asap.c89_total_order",
    "Asap.c89_hash"
   ],
   "note": "Elements as created, see C90."
  },
  {
   "property": "C90",
   "status": "partial",
   "theorems": [
    "Asap.c90_reparse_partial",
    "Asap.c90_violated"
   ],
   "note": "Elements with a colon as second character change when moved (c90_violated)."
  },
  {
   "property": "C91",
   "status": "proved",
   "theorems": [
    "Asap.c91_generic",
    "Asap.c91_stream"
   ],
   "note": "Narrow streams."
  },
  {
   "property": "C92",
   "status": "partial",
   "theorems": [
    "Asap.c92_parent_partial",
    "Asap.c92_remove",
    "Asap.c92_violated"
   ],
   "note": "parent_path: names without colon, or the result is not moved; c92_violated for a name that ends with a colon."
  },
  {
   "property": "C93",
   "status": "proved",
   "theorems": [
    "Asap.c93_stem_extension",
    "Asap.c93_replace_extension"
   ],
   "note": "stem and extension are stated for their texts. A replacement aliasing an element of the path itself is C19."
  },
  {
   "property": "C94",
   "status": "partial",
   "theorems": [
    "Asap.c94_normal_partial",
    "Asap.c94_idempotent_partial",
    "Asap.c94_denotation_partial",
    "Asap.c94_violated"
   ],
   "note": "Names without a colon; c94_violated for the others."
  },
  {
   "property": "C95",
   "status": "partial",
   "theorems": [
    "Asap.c95_relative_partial",
    "Asap.c95_inverts_partial",
    "Asap.c95_proximate_partial",
    "Asap.c95_violated"
   ],
   "note": "Names without a colon. The inversion excludes bases with a trailing separator or .. after the common elements and network names without root directory, for which it is false (c95_violated)."
  },
  {
   "property": "C96",
   "status": "partial",
   "theorems": [
    "Asap.c96_is_empty_partial",
    "Asap.c96_violated"
   ],
   "note": "All executions. Missing, because false (c96_violated): an error of the search is not lost, and links are followed."
  },
  {
   "property": "C97",
   "status": "proved",
   "theorems": [
    "Asap.c97_copy",
    "Asap.c97_quiet"
   ],
   "note": "All paths, options and executions in which listed names have no separator; the disk (which file a name leads to, its kind) answers the looks as Win/World.lean says, every other call is arbitrary. What is done is given by calls and by the single operations (copy_symlink; copy_file, see C74)."
  },
  {
   "property": "C98",
   "status": "partial",
   "theorems": [
    "Asap.c98_first_partial",
    "Asap.c98_violated",
    "Asap.c98_violated_empty"
   ],
   "note": "Proved for the start of the listing. False for the rest: an error met after an entry has been copied is lost, and a directory without entries gives the error left when the search was closed."
  },
  {
   "property": "C99",
   "status": "proved",
   "theorems": [
    "Asap.c99_remove_all",
    "Asap.Win.winRemoving_total"
   ],
   "note": "Every tree in which names have no separator or colon. The rest of the system is arbitrary; the laws used are those of the calls remove_all makes to files of the tree, and they can be met in every state (winRemoving_total). A directory can only be removed when it is empty and no search of it is under way, a file only when it is not open: that the searches and handles are closed in time is part of the proof."
  },
  {
   "property": "C100",
   "status": "partial",
   "theorems": [
    "Asap.c100_copy_partial",
    "Asap.c100_violated",
    "Asap.Win.winCopying_total",
    "Asap.Win.winNesting_total"
   ],
   "note": "c100_copy_partial: every tree of directories and files whose names have no separator or colon, every options value that asks for a full copy; any call may fail, except that a search does not break off. Missing: links and other reparse points; searches that break off, because copy then reports success (c98_violated); to inside from, because copy then makes directories without end (c100_violated). The laws can be met in every state (winCopying_total, when source and destination are apart)."
  },
  {
   "property": "C101",
   "status": "partial",
   "theorems": [
    "Asap.c101_copy_symlink_partial",
    "Asap.c101_violated",
    "Asap.c101_violated_dangling"
   ],
   "note": "c101_copy_symlink_partial: one call at the end makes the link with the text read; the kind is that of what the text leads to from the working directory. Missing, because false: a relative text looked up from the working directory gives the wrong kind (c101_violated); a link that leads nowhere is refused (c101_violated_dangling); mount points (c69_violated). Texts without names are not covered."
  },
  {
   "property": "C102",
   "status": "partial",
   "theorems": [
    "Asap.c102_memory",
    "Asap.c102_store",
    "Asap.c102_fetch",
    "Asap.c102_readback",
    "Asap.c102_violated"
   ],
   "note": "c102_memory: no memory is used or freed that is not held, and all is freed, for any answers. c102_store and c102_fetch: all runs, call by call. c102_readback: with C59's access check, what is read after setting is readBack, of which c59_exact says when it is what was set. Missing, because false: GetPermissions reports the last error instead of the error returned, fails an assertion if there is none, and takes a file in use for no error (c102_violated)."
  },
  {
   "property": "C103",
   "status": "partial",
   "theorems": [
    "Asap.c103_replay",
    "Asap.c103_law",
    "Asap.c103_status",
    "Asap.c103_exists",
    "Asap.c103_violated"
   ],
   "note": "c103_replay: for any answers each run is a run with single calls, or an assertion fails in GetPermissions or SetPermissions for want of a last error. c103_law: if failing security calls set the last error no assertion fails and theorems under WinLaw carry over, as done for status and exists. Missing, because false: without that (it is not documented) status says not_found of an existing file (c103_violated)."
  },
  {
   "property": "C104",
   "status": "partial",
   "theorems": [
    "Asap.c104_leads_partial",
    "Asap.c104_straight_partial",
    "Asap.c104_found_partial",
    "Asap.c104_same_partial",
    "Asap.c104_violated"
   ],
   "note": "The place a path leads to is defined by an inductive relation (Spec.Leads), shown to be single-valued. Missing: names with a colon, links relative to the directory of a drive, and in the error code form 40 links or more (C60); because false: a link with a root directory but no root name loses the drive it is on (c104_violated)."
  },
  {
   "property": "C105",
   "status": "partial",
   "theorems": [
    "Asap.c105_resolves_partial",
    "Asap.c105_canonical_partial",
    "Asap.c105_absolute",
    "Asap.c105_violated"
   ],
   "note": "canonical with do_absolute, is_directory, is_symlink, exists and read_symlink down to their Windows calls, on a disk described by Spec.WinDisk. c105_resolves_partial is for both forms, after do_absolute; c105_canonical_partial for the error code form of an absolute path; both say that the result is absolute; c105_absolute: every run is a run of absolute followed by such a run. Missing as in C104: names with a colon, links relative to the directory of a drive, 40 links or more; mount points (C69); more rounds than n. Because false: the error reported is always ENOENT, and an error of the current directory is replaced by it (c105_violated)."
  },
  {
   "property": "C106",
   "status": "partial",
   "theorems": [
    "Asap.c106_copies_partial",
    "Asap.c106_violated",
    "Asap.c106_refines",
    "Asap.c106_touched",
    "Asap.c106_state"
   ],
   "note": "fcopyfile may fail after any number of bytes (Spec.appleStep). c106_copies_partial: with true returned and fcopyfile having succeeded or failed without moving an offset, the destination holds the bytes of the source. Because false: when fcopyfile fails on the way the loop goes on from where the offsets are, and bytes are missing although true is returned (c106_violated). c106_refines: every run, seen without the calls of fcopyfile, is a run of the function with the read and write loop, so what holds for all runs of it holds here; c106_touched is C25 so obtained. c106_state is in full."
  },
  {
   "property": "C107",
   "status": "partial",
   "theorems": [
    "Asap.c107_utime_partial",
    "Asap.c107_violated",
    "Asap.c107_unsupported"
   ],
   "note": "Because false: fractions of a second are lost, and times less than a second before the epoch are not rejected but set the epoch (c107_violated). c107_unsupported: with neither utimensat nor utime."
  },
  {
   "property": "C108",
   "status": "proved",
   "theorems": [
    "Asap.c108_permissions",
    "Asap.c108_options"
   ],
   "note": "As C33. The mode is described by Spec.newMode, shared with C33."
  },
  {
   "property": "C109",
   "status": "partial",
   "theorems": [
    "Asap.c109_posix",
    "Asap.c109_windows_partial",
    "Asap.c109_violated",
    "Asap.c109_space",
    "Asap.c109_destructors"
   ],
   "note": "In full on POSIX systems and for the destructors. Because false on Windows for space, where the exception of absolute escapes if the working directory cannot be read (c109_violated), and in no other way (c109_space); all others in full (c109_windows_partial). Running out of memory and the conversion of encodings are not modelled."
  },
  {
   "property": "C110",
   "status": "proved",
   "theorems": [
    "Asap.c110_copy",
    "Asap.c110_keeps"
   ],
   "note": "For every execution of both overloads, also the unfinished. Places are texts of paths: what a symbolic link at such a place leads to is with the operating system."
  },
  {
   "property": "C111",
   "status": "proved",
   "theorems": [
    "Asap.c111_copy"
   ],
   "note": "For every execution of both overloads, also the unfinished. Places are texts of paths: what a link at such a place leads to is with the operating system."
  },
  {
   "property": "C112",
   "status": "partial",
   "theorems": [
    "Asap.c112_paths_partial",
    "Asap.c112_others",
    "Asap.c112_violated"
   ],
   "note": "All operations but copy, copy_file, copy_symlink, absolute and space, for which the paths they do carry are stated (for copy see C111). Because false: copy_file exchanges its paths, space may name none (c112_violated)."
  },
  {
   "property": "C113",
   "status": "proved",
   "theorems": [
    "Asap.c113_operations",
    "Asap.c113_looking"
   ],
   "note": "What is changed by copy, remove_all and create_directories at which places is C110, C31 and C28."
  },
  {
   "property": "C114",
   "status": "partial",
   "theorems": [
    "Asap.c114_operations_partial",
    "Asap.c114_iterators",
    "Asap.c114_entry_partial",
    "Asap.c114_listed_violated",
    "Asap.c114_violated"
   ],
   "note": "Under stated limits on the answers: PATH_MAX positive, texts of links not empty and not longer than the buffer, times within 64-bit nanoseconds; and for entries that have read their status themselves. Because false otherwise: assertions and undefined behaviour outside these limits (c114_violated), and for every entry met in a listing (c114_listed_violated)."
  },
  {
   "property": "C115",
   "status": "partial",
   "theorems": [
    "Asap.c115_exists",
    "Asap.c115_missing_partial",
    "Asap.c115_results",
    "Asap.c115_results_cwd",
    "Asap.c115_violated",
    "Asap.c115_looking",
    "Asap.c115_no_throw_partial",
    "Asap.c115_no_throw_violated",
    "Asap.c115_exceptions"
   ],
   "note": "Results on a disk described by Spec.WinDisk whose calls fail only where there is nothing; error code form, names without a colon, fewer than 40 links. Because false: an error while the existing part is resolved gives an empty path and no error (c115_violated); proximate(p, ec) and relative(p, ec) throw if the current directory is not known (c115_no_throw_violated)."
  },
  {
   "property": "C116",
   "status": "proved",
   "theorems": [
    "Asap.c116_operations",
    "Asap.c116_handles"
   ],
   "note": "The table Spec.WinOp.changes lists, per operation, the changing calls with their paths; for the deeper calls of copy and remove_all see C111 and C81."
  },
  {
   "property": "C117",
   "status": "partial",
   "theorems": [
    "Asap.c117_operations_partial",
    "Asap.c117_canonical_partial",
    "Asap.c117_resolve_partial",
    "Asap.c117_iterators",
    "Asap.c117_entry_partial",
    "Asap.c117_entry_violated",
    "Asap.c117_violated"
   ],
   "note": "Answers within Spec.WinSane. Because false: size or status asked with an error_code of an entry whose file has disappeared fail an assertion (c117_entry_violated); refresh of an ordinary file asserts a last error although no call failed, rename a last error although the C library sets errno, current_path reads an unfilled buffer when the directory is changed meanwhile, times from 1601 overflow a clock of nanoseconds (c117_violated). Paths are those any program can make (sturdy_reached). Missing: create_directories, canonical and its relatives compiled with copy elision, more than 2147483688 rounds of canonical."
  },
  {
   "property": "C118",
   "status": "partial",
   "theorems": [
    "Asap.c118_no_fault_partial",
    "Asap.c118_fault_partial",
    "Asap.c118_violated"
   ],
   "note": "False: a normalised '..\\' then remove_filename; parent_path with copy elision. Proved for all other histories."
  },
  {
   "property": "C119",
   "status": "proved",
   "theorems": [
    "Asap.c119_characters",
    "Asap.c119_no_nul"
   ],
   "note": ""
  },
  {
   "property": "C120",
   "status": "partial",
   "theorems": [
    "Asap.c120_operations_partial",
    "Asap.c120_entries_partial",
    "Asap.c120_violated"
   ],
   "note": "Proved for all arguments without null characters, when the texts the system answers have none; results have none either. Missing because false (c120_violated): remove of the path a\\0b removes the file a, without an error."
  },
  {
   "property": "C121",
   "status": "proved",
   "theorems": [
    "Asap.c121_source",
    "Asap.c121_reads",
    "Asap.c121_c_str"
   ],
   "note": "For char; sources of other character types go through nowide, which is not in the repository."
  },
  {
   "property": "C122",
   "status": "partial",
   "theorems": [
    "Asap.c122_equal",
    "Asap.c122_observers",
    "Asap.c122_histories_partial",
    "Asap.c122_violated"
   ],
   "note": "In full for what equality means and for the observers. Histories: whenever both runs succeed, and they do unless a path from lexically_normal is given to remove_filename or replace_filename. Because false (c122_violated): .. made by normalising ../ equals .. but remove_filename of it is undefined; with copy elision in parent_path, relative_path of a path equal to /a throws."
  },
  {
   "property": "C123",
   "status": "proved",
   "theorems": [
    "Asap.c123_canonical"
   ],
   "note": "The answers of realpath are assumed to be as POSIX says: absolute, no . or .., single separators, resolving to themselves."
  },
  {
   "property": "C124",
   "status": "partial",
   "theorems": [
    "Asap.c124_relative_partial",
    "Asap.c124_existing_partial",
    "Asap.c124_violated"
   ],
   "note": "For all paths for which weakly_canonical gives absolute paths, the base without final separator; c124_existing_partial: this holds for all files that exist. Because false (c124_violated): relative of a new file's bare name is empty without an error; a base that does not exist yet and ends in a separator counts as one level too deep. The throwing overloads: by C23."
  },
  {
   "property": "C125",
   "status": "proved",
   "theorems": [
    "Asap.c125_create_directory",
    "Asap.c125_create_symlink",
    "Asap.c125_copy_symlink",
    "Asap.c125_create_hard_link",
    "Asap.c125_resize_file",
    "Asap.c125_permissions",
    "Asap.c125_remove",
    "Asap.c125_rename_general",
    "Asap.c125_rename",
    "Asap.c125_rename_proviso"
   ],
   "note": "The file system is the specification of Os/Kernel: one user who may do everything, at most 40 links, names and final separators as in that file. c125_rename: for names in the working directory without proviso; c125_rename_proviso: the proviso on directory parts is needed."
  },
  {
   "property": "C126",
   "status": "partial",
   "theorems": [
    "Asap.c126_posix_partial",
    "Asap.c126_windows_partial",
    "Asap.c126_others",
    "Asap.c126_windows_others",
    "Asap.c126_entry",
    "Asap.c126_windows_entry",
    "Asap.c126_permissions",
    "Asap.c126_what",
    "Asap.c126_violated"
   ],
   "note": "Proved for 25 operations on each platform. Violated for the others: status, exists and all predicates name file_stat, absolute names current_path, pop() of a recursive_directory_iterator names directory_iterator::pop(); copy, copy_symlink, is_empty, canonical and weakly_canonical may name a function they use (c126_others gives the names); the observers of directory_entry name internal functions (c126_entry, c126_windows_entry)."
  },
  {
   "property": "C127",
   "status": "proved",
   "theorems": [
    "Asap.c127_observers",
    "Asap.c127_operations",
    "Asap.c127_lexical"
   ],
   "note": "For paths made from texts; a path that results from an operation is covered if it is re-parsed, which is so for /=, +=, replace_extension and copies. lexically_normal and lexically_relative give the very same object."
  },
  {
   "property": "C128",
   "status": "partial",
   "theorems": [
    "Asap.c128_effect_partial",
    "Asap.c128_succeeds",
    "Asap.c128_violated"
   ],
   "note": "False as stated: a/../f with a missing and f a file gives true without an error, a link that leads nowhere gives true though nothing is made, and a file is accepted (c128_violated); with a trailing slash nothing is done (c28_violated). Proved for paths that end in a name: the effect for all file systems, with the proviso that a prefix which is not found afterwards is a link that leads nowhere; success for paths without . and .. whose prefixes are directories or nothing. The file system is the specification of Os/Kernel."
  },
  {
   "property": "C129",
   "status": "partial",
   "theorems": [
    "Asap.c129_effect",
    "Asap.c129_removes_partial",
    "Asap.c129_missing",
    "Asap.c129_violated"
   ],
   "note": "False as stated: remove_all('d/s/../../d') removes d/s, then does not find its own path any more, takes this for 'nothing there' and reports success with 0 files removed, while d and d/t are still there (c129_violated). Proved: the effect for all file systems; removal and count when the directory part of p does not lead through p itself (it is found also without the entry p). The file system is the specification of Os/Kernel with the directory streams of Os/KernelDir; its remove does not accept a path that ends in a separator or a dot."
  },
  {
   "property": "C130",
   "status": "proved",
   "theorems": [
    "Asap.c130_lists",
    "Asap.c130_fails",
    "Asap.c130_file",
    "Asap.c130_tidy",
    "Asap.c130_start"
   ],
   "note": "For the file system of Os/Kernel with the directory streams of Os/KernelDir, in which no call is refused for want of rights. Directories are required to be in order (names are names, none twice, something behind each); c130_tidy shows that every program keeps this, c130_start that an empty file system has it. The bounds of the loops of the model are 3 reads in a row (., .. and an entry or the end) and one round more than there are entries."
  },
  {
   "property": "C131",
   "status": "partial",
   "theorems": [
    "Asap.c131_walk_partial",
    "Asap.c131_violated"
   ],
   "note": "Violated: a directory that comes after a symbolic link in a listing is not entered (c131_violated). Proved for all file systems of Os/Kernel: the walk ends without error, leaves everything as it is, and shows only what is there, nothing twice, with the right depth; it shows all of it if in no directory a link comes before a directory. That directories are in order is kept by every program (c130_tidy)."
  },
  {
   "property": "C132",
   "status": "proved",
   "theorems": [
    "Asap.c132_copy_file",
    "Asap.c132_copies"
   ],
   "note": "For the file system of Os/Kernel with the open files of Os/KernelFile: no call is refused for want of rights or space but for inode numbers, write takes all it is given (for short writes see C26), and open with O_CREAT refuses a link that leads nowhere. Files are shorter than 2^63 bytes and the bound on the rounds of the loops is above the size of the source. Sizes are assumed to be the lengths of the contents, which copy_file keeps."
  },
  {
   "property": "C133",
   "status": "partial",
   "theorems": [
    "Asap.c133_operations_partial",
    "Asap.c133_resolve_partial",
    "Asap.c133_entries_partial",
    "Asap.c133_violated"
   ],
   "note": "Proved for all arguments without null characters, when the texts the system answers have none (in the print name of a reparse point, unpaired surrogates count as null characters); results have none either. Missing because false (c133_violated): remove of the path a\\0b deletes the file a, without an error, and an iterator over it searches for a and not for what is in a directory."
  },
  {
   "property": "C134",
   "status": "proved",
   "theorems": [
    "Asap.c134_file",
    "Asap.c134_copies",
    "Asap.c134_as_copy_file",
    "Asap.c134_same",
    "Asap.c134_create_symlinks",
    "Asap.c134_create_hard_links",
    "Asap.c134_copy_symlinks",
    "Asap.c134_passes",
    "Asap.c134_links"
   ],
   "note": "On the file system of Os/KernelFile, for files shorter than 2^63 bytes and a loop bound above their length. Calls are refused as in C132. Directories as source are the subject of C50 and C51, not of this claim."
  },
  {
   "property": "C135",
   "status": "partial",
   "theorems": [
    "Asap.c135_said_iff_done",
    "Asap.c135_ports",
    "Asap.c135_failed_partial",
    "Asap.c135_windows_done_is_said",
    "Asap.c135_windows_said_iff_done_partial",
    "Asap.c135_windows_failed_partial",
    "Asap.c135_violated",
    "Asap.c135_windows_violated"
   ],
   "note": "Proved for all operations that make one change, and for those that look, whatever the system answers; on Windows copy_file is among them. False for copy, copy_file (POSIX), create_directories and remove_all, which can fail halfway (c135_violated; for the failed copy the new file stays behind). On Windows the converse is false for remove and for create_directory with a template, which say true without a change (c135_windows_violated). c135_ports: the builds with utime and chmod. A call that the system refused is taken to have changed nothing."
  },
  {
   "property": "C136",
   "status": "partial",
   "theorems": [
    "Asap.c136_operations_partial",
    "Asap.c136_status",
    "Asap.c136_ports",
    "Asap.c136_remove_all_partial",
    "Asap.c136_weakly_canonical_partial",
    "Asap.c136_violated",
    "Asap.c136_close_violated"
   ],
   "note": "Proved for 30 operations, whatever the system answers, among them copy_file, remove, rename, permissions, canonical, equivalent, is_empty and the directory iterators (without skip_permission_denied; ++ of the recursive one without follow_directory_symlink). Proved also for status and the predicates (c136_status) and for the builds with fcopyfile, utime and chmod (c136_ports). remove_all fails or returns 0, weakly_canonical fails or returns the empty path. False for weakly_canonical, create_directories, copy, remove_all and ++ of a recursive_directory_iterator that follows links (c136_violated), and for the failures of close (c136_close_violated). Not counted: failures of sendfile and fcopyfile, after which the copy goes on with read and write. Missing: relative and proximate, and Windows."
  },
  {
   "property": "C137",
   "status": "proved",
   "theorems": [
    "Asap.c137_operations",
    "Asap.c137_status",
    "Asap.c137_entries",
    "Asap.c137_own_occurs"
   ],
   "note": "For POSIX. Also for every call of a directory_entry, whatever its cache holds (c137_entries). The list of an operation's own errors is part of the statement (Spec.FsOp.own); all but two of them do occur without a call that gave them (c137_own_occurs). Windows is not covered."
  }
 ]
}