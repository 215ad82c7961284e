import Verif.Props.Sample
import Verif.Props.Reading
import Verif.Props.Headers
import Verif.Props.Entries
import Verif.Props.Save
import Verif.Props.Requests
import Verif.Props.Client
import Verif.Props.RoundTrip
import Verif.Props.Lazy
import Verif.Props.Adapters
import Verif.Props.Mock
import Verif.Props.Iron
import Verif.Props.Success
import Verif.Props.Upload
import Verif.Props.IronAccept
import Verif.Props.Retry
import Verif.Props.Cut
import Verif.Props.LazyHyper
import Verif.Props.DataReader
import Verif.Props.Owned
import Verif.Props.Whole
import Verif.Props.Cleared
import Verif.Props.Settings
import Verif.Props.TempDir
import Verif.Props.Integrations
import Verif.Props.Split
import Verif.Props.Limits
import Verif.Props.Examples
import Verif.Props.Tools
import Verif.Props.Usage
import Verif.Props.LocalTest
import Verif.Props.Disposition
import Verif.Props.SmallReads
import Verif.Props.Stuck
import Verif.Props.ExampleClients
import Verif.Props.Collisions
import Verif.Props.SavedReads
import Verif.Props.InterceptExample
import Verif.Props.MinBuffer
import Verif.Props.Oversize
import Verif.Props.SmallBodies
import Verif.Props.IronOversize
import Verif.Props.HeaderErrors
import Verif.Props.Injection
import Verif.Props.OpenOpts
import Verif.Props.Leak
import Verif.Props.Skip
import Verif.Props.LeakSave
import Verif.Props.ReadAhead
import Verif.Props.Exceeds
import Verif.Props.IronSkip
import Verif.Props.Loses
import Verif.Props.BadSkip
import Verif.Props.RetryLoses
import Verif.Props.LazyLoses
import Verif.Props.Passes
import Verif.Props.Differs
import Verif.Props.TextBytes
import Verif.Props.FileNames
import Verif.Props.OtherClients
import Verif.Props.HeaderOrder
import Verif.Props.Wire
import Verif.Props.ServerLife
import Verif.Props.BadPart
import Verif.Props.Tolerant
import Verif.Props.Forward
import Verif.Props.Resume
import Verif.Props.NoBody
import Verif.Props.AnyBody
import Verif.Props.Work
import Verif.Props.Causal
import Verif.Props.Raise
import Verif.Props.CausalSave
import Verif.Props.Nested
import Verif.Props.Bounded
import Verif.Props.ContentType
import Verif.Props.DiskUse
import Verif.Props.IronUse
import Verif.Props.Threads
import Verif.Props.ExampleDisk
import Verif.Props.Workers
import Verif.Props.Padding
import Verif.Props.MidLine
import Verif.Props.IronWorkers
import Verif.Props.Solo
import Verif.Props.IronRoom
import Verif.Props.Decided
import Verif.Props.WriteSteps
import Verif.Props.Crash
import Verif.Props.Kinds
import Verif.Props.FineLive
import Verif.Props.Splice
import Verif.Props.SameBytes
import Verif.Props.Store
import Verif.Props.SameSave
import Verif.Props.LegalBoundary
import Verif.Props.LazyPull
import Verif.Props.FullMeansAll
import Verif.Props.EndMeansAll
import Verif.Props.Confirmed
import Verif.Props.AnyClient
import Verif.Props.AnySaved
/-!
# The axioms of the property theorems

Each message is checked when this file is compiled.
-/

/-- info: 'Multipart.C01_false' depends on axioms: [propext, Classical.choice, Quot.sound] -/
#guard_msgs (whitespace := lax) in
#print axioms Multipart.C01_false

/-- info: 'Multipart.C01_field_bytes_cleanSplit_partial' depends on axioms: [propext, Classical.choice, Quot.sound] -/
#guard_msgs (whitespace := lax) in
#print axioms Multipart.C01_field_bytes_cleanSplit_partial

/-- info: 'Multipart.C01_field_bytes_partial' depends on axioms: [propext, Classical.choice, Quot.sound] -/
#guard_msgs (whitespace := lax) in
#print axioms Multipart.C01_field_bytes_partial

/-- info: 'Multipart.C01_leaks' depends on axioms: [propext, Classical.choice, Quot.sound] -/
#guard_msgs (whitespace := lax) in
#print axioms Multipart.C01_leaks

/-- info: 'Multipart.C01_leaks_somehow' depends on axioms: [propext, Classical.choice, Quot.sound] -/
#guard_msgs (whitespace := lax) in
#print axioms Multipart.C01_leaks_somehow

/-- info: 'Multipart.C01_reaches_eof' depends on axioms: [propext, Classical.choice, Quot.sound] -/
#guard_msgs (whitespace := lax) in
#print axioms Multipart.C01_reaches_eof

/-- info: 'Multipart.C01_short_data_partial' depends on axioms: [propext, Classical.choice, Quot.sound] -/
#guard_msgs (whitespace := lax) in
#print axioms Multipart.C01_short_data_partial

/-- info: 'Multipart.C01_short_partial' depends on axioms: [propext, Classical.choice, Quot.sound] -/
#guard_msgs (whitespace := lax) in
#print axioms Multipart.C01_short_partial

/-- info: 'Multipart.C01_small_bodies_partial' depends on axioms: [propext, Classical.choice, Quot.sound] -/
#guard_msgs (whitespace := lax) in
#print axioms Multipart.C01_small_bodies_partial

/-- info: 'Multipart.C02_never_past_delimiter' depends on axioms: [propext, Classical.choice, Quot.sound] -/
#guard_msgs (whitespace := lax) in
#print axioms Multipart.C02_never_past_delimiter

/-- info: 'Multipart.C03_conservation' depends on axioms: [propext, Classical.choice, Quot.sound] -/
#guard_msgs (whitespace := lax) in
#print axioms Multipart.C03_conservation

/-- info: 'Multipart.C04_error_consumes_nothing' depends on axioms: [propext, Classical.choice, Quot.sound] -/
#guard_msgs (whitespace := lax) in
#print axioms Multipart.C04_error_consumes_nothing

/-- info: 'Multipart.C04_error_surfaces' depends on axioms: [propext, Quot.sound] -/
#guard_msgs (whitespace := lax) in
#print axioms Multipart.C04_error_surfaces

/-- info: 'Multipart.C05_no_panic' depends on axioms: [propext, Classical.choice, Quot.sound] -/
#guard_msgs (whitespace := lax) in
#print axioms Multipart.C05_no_panic

/-- info: 'Multipart.C06_terminates' depends on axioms: [propext, Classical.choice, Quot.sound] -/
#guard_msgs (whitespace := lax) in
#print axioms Multipart.C06_terminates

/-- info: 'Multipart.C07_any_partial' depends on axioms: [propext, Classical.choice, Quot.sound] -/
#guard_msgs (whitespace := lax) in
#print axioms Multipart.C07_any_partial

/-- info: 'Multipart.C07_fails' depends on axioms: [propext, Classical.choice, Quot.sound] -/
#guard_msgs (whitespace := lax) in
#print axioms Multipart.C07_fails

/-- info: 'Multipart.C07_fails_somehow' depends on axioms: [propext, Classical.choice, Quot.sound] -/
#guard_msgs (whitespace := lax) in
#print axioms Multipart.C07_fails_somehow

/-- info: 'Multipart.C07_false' depends on axioms: [propext, Quot.sound] -/
#guard_msgs (whitespace := lax) in
#print axioms Multipart.C07_false

/-- info: 'Multipart.C07_short_partial' depends on axioms: [propext, Classical.choice, Quot.sound] -/
#guard_msgs (whitespace := lax) in
#print axioms Multipart.C07_short_partial

/-- info: 'Multipart.C07_skip_partial' depends on axioms: [propext, Classical.choice, Quot.sound] -/
#guard_msgs (whitespace := lax) in
#print axioms Multipart.C07_skip_partial

/-- info: 'Multipart.C07_small_partial' depends on axioms: [propext, Classical.choice, Quot.sound] -/
#guard_msgs (whitespace := lax) in
#print axioms Multipart.C07_small_partial

/-- info: 'Multipart.C07_stuck' depends on axioms: [propext, Classical.choice, Quot.sound] -/
#guard_msgs (whitespace := lax) in
#print axioms Multipart.C07_stuck

/-- info: 'Multipart.C08_end_final' depends on axioms: [propext, Classical.choice, Quot.sound] -/
#guard_msgs (whitespace := lax) in
#print axioms Multipart.C08_end_final

/-- info: 'Multipart.C09_end_is_real' depends on axioms: [propext, Classical.choice, Quot.sound] -/
#guard_msgs (whitespace := lax) in
#print axioms Multipart.C09_end_is_real

/-- info: 'Multipart.C09_truncated_errors' depends on axioms: [propext, Classical.choice, Quot.sound] -/
#guard_msgs (whitespace := lax) in
#print axioms Multipart.C09_truncated_errors

/-- info: 'Multipart.C10_entries_are_parts' depends on axioms: [propext, Classical.choice, Quot.sound] -/
#guard_msgs (whitespace := lax) in
#print axioms Multipart.C10_entries_are_parts

/-- info: 'Multipart.C10_entry_introduced' depends on axioms: [propext, Classical.choice, Quot.sound] -/
#guard_msgs (whitespace := lax) in
#print axioms Multipart.C10_entry_introduced

/-- info: 'Multipart.C10_reads_total' depends on axioms: [propext, Classical.choice, Quot.sound] -/
#guard_msgs (whitespace := lax) in
#print axioms Multipart.C10_reads_total

/-- info: 'Multipart.C11_damaged_kind_partial' depends on axioms: [propext, Classical.choice, Quot.sound] -/
#guard_msgs (whitespace := lax) in
#print axioms Multipart.C11_damaged_kind_partial

/-- info: 'Multipart.C11_damaged_sticky' depends on axioms: [propext, Classical.choice, Quot.sound] -/
#guard_msgs (whitespace := lax) in
#print axioms Multipart.C11_damaged_sticky

/-- info: 'Multipart.C11_fails_somehow' depends on axioms: [propext, Classical.choice, Quot.sound] -/
#guard_msgs (whitespace := lax) in
#print axioms Multipart.C11_fails_somehow

/-- info: 'Multipart.C11_false' depends on axioms: [propext, Quot.sound] -/
#guard_msgs (whitespace := lax) in
#print axioms Multipart.C11_false

/-- info: 'Multipart.C11_small_partial' depends on axioms: [propext, Classical.choice, Quot.sound] -/
#guard_msgs (whitespace := lax) in
#print axioms Multipart.C11_small_partial

/-- info: 'Multipart.C12_preamble' depends on axioms: [propext, Classical.choice, Quot.sound] -/
#guard_msgs (whitespace := lax) in
#print axioms Multipart.C12_preamble

/-- info: 'Multipart.C12_preamble_epilogue' depends on axioms: [propext, Classical.choice, Quot.sound] -/
#guard_msgs (whitespace := lax) in
#print axioms Multipart.C12_preamble_epilogue

/-- info: 'Multipart.C13_fill_buf_stable' depends on axioms: [propext, Classical.choice, Quot.sound] -/
#guard_msgs (whitespace := lax) in
#print axioms Multipart.C13_fill_buf_stable

/-- info: 'Multipart.C14_headers_parse' depends on axioms: [propext, Classical.choice, Quot.sound] -/
#guard_msgs (whitespace := lax) in
#print axioms Multipart.C14_headers_parse

/-- info: 'Multipart.C15_bad_headers_rejected' depends on axioms: [propext, Classical.choice, Quot.sound] -/
#guard_msgs (whitespace := lax) in
#print axioms Multipart.C15_bad_headers_rejected

/-- info: 'Multipart.C16_continues_partial' depends on axioms: [propext, Classical.choice, Quot.sound] -/
#guard_msgs (whitespace := lax) in
#print axioms Multipart.C16_continues_partial

/-- info: 'Multipart.C16_fails_somehow' depends on axioms: [propext, Classical.choice, Quot.sound] -/
#guard_msgs (whitespace := lax) in
#print axioms Multipart.C16_fails_somehow

/-- info: 'Multipart.C16_false' depends on axioms: [propext, Quot.sound] -/
#guard_msgs (whitespace := lax) in
#print axioms Multipart.C16_false

/-- info: 'Multipart.C16_small_partial' depends on axioms: [propext, Classical.choice, Quot.sound] -/
#guard_msgs (whitespace := lax) in
#print axioms Multipart.C16_small_partial

/-- info: 'Multipart.C17_header_lookup' depends on axioms: [propext, Classical.choice, Quot.sound] -/
#guard_msgs (whitespace := lax) in
#print axioms Multipart.C17_header_lookup

/-- info: 'Multipart.C17_required' depends on axioms: [propext, Classical.choice, Quot.sound] -/
#guard_msgs (whitespace := lax) in
#print axioms Multipart.C17_required

/-- info: 'Multipart.C18_exact' depends on axioms: [propext, Classical.choice, Quot.sound] -/
#guard_msgs (whitespace := lax) in
#print axioms Multipart.C18_exact

/-- info: 'Multipart.C18_false_order' depends on axioms: [propext] -/
#guard_msgs (whitespace := lax) in
#print axioms Multipart.C18_false_order

/-- info: 'Multipart.C18_false_semicolon' depends on axioms: [propext] -/
#guard_msgs (whitespace := lax) in
#print axioms Multipart.C18_false_semicolon

/-- info: 'Multipart.C18_params_partial' depends on axioms: [propext, Classical.choice, Quot.sound] -/
#guard_msgs (whitespace := lax) in
#print axioms Multipart.C18_params_partial

/-- info: 'Multipart.C18_when' depends on axioms: [propext, Classical.choice, Quot.sound] -/
#guard_msgs (whitespace := lax) in
#print axioms Multipart.C18_when

/-- info: 'Multipart.C19_is_text' depends on axioms: [propext, Classical.choice, Quot.sound] -/
#guard_msgs (whitespace := lax) in
#print axioms Multipart.C19_is_text

/-- info: 'Multipart.C20_foreach_entry' depends on axioms: [propext, Classical.choice, Quot.sound] -/
#guard_msgs (whitespace := lax) in
#print axioms Multipart.C20_foreach_entry

/-- info: 'Multipart.C20_sees_parts' depends on axioms: [propext, Classical.choice, Quot.sound] -/
#guard_msgs (whitespace := lax) in
#print axioms Multipart.C20_sees_parts

/-- info: 'Multipart.C21_from_request' depends on axioms: [propext] -/
#guard_msgs (whitespace := lax) in
#print axioms Multipart.C21_from_request

/-- info: 'Multipart.C22_min_buf_size' depends on axioms: [propext, Classical.choice, Quot.sound] -/
#guard_msgs (whitespace := lax) in
#print axioms Multipart.C22_min_buf_size

/-- info: 'Multipart.C23_body' depends on axioms: [propext, Classical.choice, Quot.sound] -/
#guard_msgs (whitespace := lax) in
#print axioms Multipart.C23_body

/-- info: 'Multipart.C23_no_fields' depends on axioms: [propext, Classical.choice, Quot.sound] -/
#guard_msgs (whitespace := lax) in
#print axioms Multipart.C23_no_fields

/-- info: 'Multipart.C23_unique' depends on axioms: [propext] -/
#guard_msgs (whitespace := lax) in
#print axioms Multipart.C23_unique

/-- info: 'Multipart.C24_clean_split_partial' depends on axioms: [propext, Classical.choice, Quot.sound] -/
#guard_msgs (whitespace := lax) in
#print axioms Multipart.C24_clean_split_partial

/-- info: 'Multipart.C24_false' depends on axioms: [propext, Classical.choice, Quot.sound] -/
#guard_msgs (whitespace := lax) in
#print axioms Multipart.C24_false

/-- info: 'Multipart.C24_round_trip_partial' depends on axioms: [propext, Classical.choice, Quot.sound] -/
#guard_msgs (whitespace := lax) in
#print axioms Multipart.C24_round_trip_partial

/-- info: 'Multipart.C25_failure' depends on axioms: [propext, Classical.choice, Quot.sound] -/
#guard_msgs (whitespace := lax) in
#print axioms Multipart.C25_failure

/-- info: 'Multipart.C25_outcome' depends on axioms: [propext, Classical.choice, Quot.sound] -/
#guard_msgs (whitespace := lax) in
#print axioms Multipart.C25_outcome

/-- info: 'Multipart.C25_short_writes' depends on axioms: [propext, Classical.choice, Quot.sound] -/
#guard_msgs (whitespace := lax) in
#print axioms Multipart.C25_short_writes

/-- info: 'Multipart.C25_success' depends on axioms: [propext, Classical.choice, Quot.sound] -/
#guard_msgs (whitespace := lax) in
#print axioms Multipart.C25_success

/-- info: 'Multipart.C26_content_type' depends on axioms: [propext, Classical.choice, Quot.sound] -/
#guard_msgs (whitespace := lax) in
#print axioms Multipart.C26_content_type

/-- info: 'Multipart.C27_length' depends on axioms: [propext, Classical.choice, Quot.sound] -/
#guard_msgs (whitespace := lax) in
#print axioms Multipart.C27_length

/-- info: 'Multipart.C27_outcome' depends on axioms: [propext, Classical.choice, Quot.sound] -/
#guard_msgs (whitespace := lax) in
#print axioms Multipart.C27_outcome

/-- info: 'Multipart.C27_refused' depends on axioms: [propext, Classical.choice, Quot.sound] -/
#guard_msgs (whitespace := lax) in
#print axioms Multipart.C27_refused

/-- info: 'Multipart.C27_same_body' depends on axioms: [propext, Classical.choice, Quot.sound] -/
#guard_msgs (whitespace := lax) in
#print axioms Multipart.C27_same_body

/-- info: 'Multipart.C27_succeeds' depends on axioms: [propext, Classical.choice, Quot.sound] -/
#guard_msgs (whitespace := lax) in
#print axioms Multipart.C27_succeeds

/-- info: 'Multipart.C28_chained_partial' depends on axioms: [propext, Classical.choice, Quot.sound] -/
#guard_msgs (whitespace := lax) in
#print axioms Multipart.C28_chained_partial

/-- info: 'Multipart.C28_false' depends on axioms: [propext] -/
#guard_msgs (whitespace := lax) in
#print axioms Multipart.C28_false

/-- info: 'Multipart.C28_goes_on' depends on axioms: [propext, Classical.choice, Quot.sound] -/
#guard_msgs (whitespace := lax) in
#print axioms Multipart.C28_goes_on

/-- info: 'Multipart.C29_all_occur' depends on axioms: [propext, Quot.sound] -/
#guard_msgs (whitespace := lax) in
#print axioms Multipart.C29_all_occur

/-- info: 'Multipart.C29_boundary' depends on axioms: [propext, Quot.sound] -/
#guard_msgs (whitespace := lax) in
#print axioms Multipart.C29_boundary

/-- info: 'Multipart.C29_safe' depends on axioms: [propext, Quot.sound] -/
#guard_msgs (whitespace := lax) in
#print axioms Multipart.C29_safe

/-- info: 'Multipart.C30_read_sizes' depends on axioms: [propext, Classical.choice, Quot.sound] -/
#guard_msgs (whitespace := lax) in
#print axioms Multipart.C30_read_sizes

/-- info: 'Multipart.C31_exact_partial' depends on axioms: [propext, Classical.choice, Quot.sound] -/
#guard_msgs (whitespace := lax) in
#print axioms Multipart.C31_exact_partial

/-- info: 'Multipart.C31_false' depends on axioms: [propext] -/
#guard_msgs (whitespace := lax) in
#print axioms Multipart.C31_false

/-- info: 'Multipart.C31_when' depends on axioms: [propext, Classical.choice, Quot.sound] -/
#guard_msgs (whitespace := lax) in
#print axioms Multipart.C31_when

/-- info: 'Multipart.C31_without_texts_partial' depends on axioms: [propext, Classical.choice, Quot.sound] -/
#guard_msgs (whitespace := lax) in
#print axioms Multipart.C31_without_texts_partial

/-- info: 'Multipart.C32_all_fields' depends on axioms: [propext, Classical.choice, Quot.sound] -/
#guard_msgs (whitespace := lax) in
#print axioms Multipart.C32_all_fields

/-- info: 'Multipart.C32_permutation' depends on axioms: [propext, Quot.sound] -/
#guard_msgs (whitespace := lax) in
#print axioms Multipart.C32_permutation

/-- info: 'Multipart.C33_boundary_partial' depends on axioms: [propext, Classical.choice, Quot.sound] -/
#guard_msgs (whitespace := lax) in
#print axioms Multipart.C33_boundary_partial

/-- info: 'Multipart.C33_false' depends on axioms: [propext] -/
#guard_msgs (whitespace := lax) in
#print axioms Multipart.C33_false

/-- info: 'Multipart.C33_send_again_panics' depends on axioms: [propext] -/
#guard_msgs (whitespace := lax) in
#print axioms Multipart.C33_send_again_panics

/-- info: 'Multipart.C34_clean_split_partial' depends on axioms: [propext, Classical.choice, Quot.sound] -/
#guard_msgs (whitespace := lax) in
#print axioms Multipart.C34_clean_split_partial

/-- info: 'Multipart.C34_false' depends on axioms: [propext, Classical.choice, Quot.sound] -/
#guard_msgs (whitespace := lax) in
#print axioms Multipart.C34_false

/-- info: 'Multipart.C34_no_fields' depends on axioms: [propext, Classical.choice, Quot.sound] -/
#guard_msgs (whitespace := lax) in
#print axioms Multipart.C34_no_fields

/-- info: 'Multipart.C34_round_trip_partial' depends on axioms: [propext, Classical.choice, Quot.sound] -/
#guard_msgs (whitespace := lax) in
#print axioms Multipart.C34_round_trip_partial

/-- info: 'Multipart.C35_false' depends on axioms: [propext, Quot.sound] -/
#guard_msgs (whitespace := lax) in
#print axioms Multipart.C35_false

/-- info: 'Multipart.C35_loses' depends on axioms: [propext, Classical.choice, Quot.sound] -/
#guard_msgs (whitespace := lax) in
#print axioms Multipart.C35_loses

/-- info: 'Multipart.C35_pieces_partial' depends on axioms: [propext, Classical.choice, Quot.sound] -/
#guard_msgs (whitespace := lax) in
#print axioms Multipart.C35_pieces_partial

/-- info: 'Multipart.C35_send_false' depends on axioms: [propext] -/
#guard_msgs (whitespace := lax) in
#print axioms Multipart.C35_send_false

/-- info: 'Multipart.C35_single_bytes_partial' depends on axioms: [propext, Classical.choice, Quot.sound] -/
#guard_msgs (whitespace := lax) in
#print axioms Multipart.C35_single_bytes_partial

/-- info: 'Multipart.C36_named' depends on axioms: [propext, Classical.choice, Quot.sound] -/
#guard_msgs (whitespace := lax) in
#print axioms Multipart.C36_named

/-- info: 'Multipart.C37_full_complete' depends on axioms: [propext, Classical.choice, Quot.sound] -/
#guard_msgs (whitespace := lax) in
#print axioms Multipart.C37_full_complete

/-- info: 'Multipart.C37_full_data' depends on axioms: [propext, Classical.choice, Quot.sound] -/
#guard_msgs (whitespace := lax) in
#print axioms Multipart.C37_full_data

/-- info: 'Multipart.C38_exceeds' depends on axioms: [propext, Classical.choice, Quot.sound] -/
#guard_msgs (whitespace := lax) in
#print axioms Multipart.C38_exceeds

/-- info: 'Multipart.C38_false' depends on axioms: [propext] -/
#guard_msgs (whitespace := lax) in
#print axioms Multipart.C38_false

/-- info: 'Multipart.C38_requests_exceed' depends on axioms: [propext, Classical.choice, Quot.sound] -/
#guard_msgs (whitespace := lax) in
#print axioms Multipart.C38_requests_exceed

/-- info: 'Multipart.C38_size_limit_partial' depends on axioms: [propext, Classical.choice, Quot.sound] -/
#guard_msgs (whitespace := lax) in
#print axioms Multipart.C38_size_limit_partial

/-- info: 'Multipart.C39_memory_bound' depends on axioms: [propext, Classical.choice, Quot.sound] -/
#guard_msgs (whitespace := lax) in
#print axioms Multipart.C39_memory_bound

/-- info: 'Multipart.C40_empty' depends on axioms: [propext, Classical.choice, Quot.sound] -/
#guard_msgs (whitespace := lax) in
#print axioms Multipart.C40_empty

/-- info: 'Multipart.C40_false' depends on axioms: [propext] -/
#guard_msgs (whitespace := lax) in
#print axioms Multipart.C40_false

/-- info: 'Multipart.C40_threshold_zero_partial' depends on axioms: [propext, Classical.choice, Quot.sound] -/
#guard_msgs (whitespace := lax) in
#print axioms Multipart.C40_threshold_zero_partial

/-- info: 'Multipart.C41_creates' depends on axioms: [propext, Classical.choice, Quot.sound] -/
#guard_msgs (whitespace := lax) in
#print axioms Multipart.C41_creates

/-- info: 'Multipart.C41_false' depends on axioms: [propext] -/
#guard_msgs (whitespace := lax) in
#print axioms Multipart.C41_false

/-- info: 'Multipart.C41_no_disk_partial' depends on axioms: [propext, Classical.choice, Quot.sound] -/
#guard_msgs (whitespace := lax) in
#print axioms Multipart.C41_no_disk_partial

/-- info: 'Multipart.C41_otherwise' depends on axioms: [propext, Classical.choice, Quot.sound] -/
#guard_msgs (whitespace := lax) in
#print axioms Multipart.C41_otherwise

/-- info: 'Multipart.C42_text_exact' depends on axioms: [propext, Classical.choice, Quot.sound] -/
#guard_msgs (whitespace := lax) in
#print axioms Multipart.C42_text_exact

/-- info: 'Multipart.C43_false' depends on axioms: [propext, Classical.choice, Quot.sound] -/
#guard_msgs (whitespace := lax) in
#print axioms Multipart.C43_false

/-- info: 'Multipart.C43_force_text_partial' depends on axioms: [propext, Classical.choice, Quot.sound] -/
#guard_msgs (whitespace := lax) in
#print axioms Multipart.C43_force_text_partial

/-- info: 'Multipart.C43_rejects_partial' depends on axioms: [propext, Classical.choice, Quot.sound] -/
#guard_msgs (whitespace := lax) in
#print axioms Multipart.C43_rejects_partial

/-- info: 'Multipart.C43_saved_instead' depends on axioms: [propext, Classical.choice, Quot.sound] -/
#guard_msgs (whitespace := lax) in
#print axioms Multipart.C43_saved_instead

/-- info: 'Multipart.C44_diverges' depends on axioms: [propext, Classical.choice, Quot.sound] -/
#guard_msgs (whitespace := lax) in
#print axioms Multipart.C44_diverges

/-- info: 'Multipart.C44_false' depends on axioms: [propext, Classical.choice, Quot.sound] -/
#guard_msgs (whitespace := lax) in
#print axioms Multipart.C44_false

/-- info: 'Multipart.C44_terminates_partial' depends on axioms: [propext, Classical.choice, Quot.sound] -/
#guard_msgs (whitespace := lax) in
#print axioms Multipart.C44_terminates_partial

/-- info: 'Multipart.C45_file_size' depends on axioms: [propext, Classical.choice, Quot.sound] -/
#guard_msgs (whitespace := lax) in
#print axioms Multipart.C45_file_size

/-- info: 'Multipart.C46_no_overwrite' depends on axioms: [propext, Classical.choice, Quot.sound] -/
#guard_msgs (whitespace := lax) in
#print axioms Multipart.C46_no_overwrite

/-- info: 'Multipart.C47_write_to' depends on axioms: [propext, Classical.choice, Quot.sound] -/
#guard_msgs (whitespace := lax) in
#print axioms Multipart.C47_write_to

/-- info: 'Multipart.C48_false' depends on axioms: [propext] -/
#guard_msgs (whitespace := lax) in
#print axioms Multipart.C48_false

/-- info: 'Multipart.C48_false_partial_result' depends on axioms: [propext] -/
#guard_msgs (whitespace := lax) in
#print axioms Multipart.C48_false_partial_result

/-- info: 'Multipart.C48_loses' depends on axioms: [propext, Classical.choice, Quot.sound] -/
#guard_msgs (whitespace := lax) in
#print axioms Multipart.C48_loses

/-- info: 'Multipart.C48_no_loss_partial' depends on axioms: [propext, Classical.choice, Quot.sound] -/
#guard_msgs (whitespace := lax) in
#print axioms Multipart.C48_no_loss_partial

/-- info: 'Multipart.C49_count_limit' depends on axioms: [propext, Classical.choice, Quot.sound] -/
#guard_msgs (whitespace := lax) in
#print axioms Multipart.C49_count_limit

/-- info: 'Multipart.C50_below_limit_partial' depends on axioms: [propext, Classical.choice, Quot.sound] -/
#guard_msgs (whitespace := lax) in
#print axioms Multipart.C50_below_limit_partial

/-- info: 'Multipart.C50_false' depends on axioms: [propext, Classical.choice, Quot.sound] -/
#guard_msgs (whitespace := lax) in
#print axioms Multipart.C50_false

/-- info: 'Multipart.C50_never_full' depends on axioms: [propext, Classical.choice, Quot.sound] -/
#guard_msgs (whitespace := lax) in
#print axioms Multipart.C50_never_full

/-- info: 'Multipart.C50_stopped' depends on axioms: [propext, Classical.choice, Quot.sound] -/
#guard_msgs (whitespace := lax) in
#print axioms Multipart.C50_stopped

/-- info: 'Multipart.C51_at_end_partial' depends on axioms: [propext, Classical.choice, Quot.sound] -/
#guard_msgs (whitespace := lax) in
#print axioms Multipart.C51_at_end_partial

/-- info: 'Multipart.C51_false' depends on axioms: [propext, Classical.choice, Quot.sound] -/
#guard_msgs (whitespace := lax) in
#print axioms Multipart.C51_false

/-- info: 'Multipart.C51_resume_partial' depends on axioms: [propext, Classical.choice, Quot.sound] -/
#guard_msgs (whitespace := lax) in
#print axioms Multipart.C51_resume_partial

/-- info: 'Multipart.C52_grouped' depends on axioms: [propext, Classical.choice, Quot.sound] -/
#guard_msgs (whitespace := lax) in
#print axioms Multipart.C52_grouped

/-- info: 'Multipart.C52_recount' depends on axioms: [propext] -/
#guard_msgs (whitespace := lax) in
#print axioms Multipart.C52_recount

/-- info: 'Multipart.C53_all_read' depends on axioms: [propext, Classical.choice, Quot.sound] -/
#guard_msgs (whitespace := lax) in
#print axioms Multipart.C53_all_read

/-- info: 'Multipart.C53_full_has_every_field' depends on axioms: [propext, Classical.choice, Quot.sound] -/
#guard_msgs (whitespace := lax) in
#print axioms Multipart.C53_full_has_every_field

/-- info: 'Multipart.C54_readable' depends on axioms: [propext, Classical.choice, Quot.sound] -/
#guard_msgs (whitespace := lax) in
#print axioms Multipart.C54_readable

/-- info: 'Multipart.C55_conversions' depends on axioms: [propext, Quot.sound] -/
#guard_msgs (whitespace := lax) in
#print axioms Multipart.C55_conversions

/-- info: 'Multipart.C55_entries' depends on axioms: [propext, Quot.sound] -/
#guard_msgs (whitespace := lax) in
#print axioms Multipart.C55_entries

/-- info: 'Multipart.C55_false' depends on axioms: [propext] -/
#guard_msgs (whitespace := lax) in
#print axioms Multipart.C55_false

/-- info: 'Multipart.C55_strict_partial' depends on axioms: [propext, Quot.sound] -/
#guard_msgs (whitespace := lax) in
#print axioms Multipart.C55_strict_partial

/-- info: 'Multipart.C56_keeps_unfinished' depends on axioms: [propext, Classical.choice, Quot.sound] -/
#guard_msgs (whitespace := lax) in
#print axioms Multipart.C56_keeps_unfinished

/-- info: 'Multipart.C57_is_temporary' depends on axioms: [propext] -/
#guard_msgs (whitespace := lax) in
#print axioms Multipart.C57_is_temporary

/-- info: 'Multipart.C57_lifecycle' depends on axioms: [propext, Quot.sound] -/
#guard_msgs (whitespace := lax) in
#print axioms Multipart.C57_lifecycle

/-- info: 'Multipart.C58_false' depends on axioms: [propext] -/
#guard_msgs (whitespace := lax) in
#print axioms Multipart.C58_false

/-- info: 'Multipart.C58_filename_partial' depends on axioms: [propext, Classical.choice, Quot.sound] -/
#guard_msgs (whitespace := lax) in
#print axioms Multipart.C58_filename_partial

/-- info: 'Multipart.C58_never' depends on axioms: [propext, Classical.choice, Quot.sound] -/
#guard_msgs (whitespace := lax) in
#print axioms Multipart.C58_never

/-- info: 'Multipart.C59_limits' depends on axioms: [propext, Classical.choice, Quot.sound] -/
#guard_msgs (whitespace := lax) in
#print axioms Multipart.C59_limits

/-- info: 'Multipart.C59_only_full' depends on axioms: [propext, Classical.choice, Quot.sound] -/
#guard_msgs (whitespace := lax) in
#print axioms Multipart.C59_only_full

/-- info: 'Multipart.C59_oversize_false' depends on axioms: [propext, Classical.choice, Quot.sound] -/
#guard_msgs (whitespace := lax) in
#print axioms Multipart.C59_oversize_false

/-- info: 'Multipart.C59_oversize_partial' depends on axioms: [propext, Classical.choice, Quot.sound] -/
#guard_msgs (whitespace := lax) in
#print axioms Multipart.C59_oversize_partial

/-- info: 'Multipart.C59_passes' depends on axioms: [propext, Classical.choice, Quot.sound] -/
#guard_msgs (whitespace := lax) in
#print axioms Multipart.C59_passes

/-- info: 'Multipart.C59_returns' depends on axioms: [propext, Classical.choice, Quot.sound] -/
#guard_msgs (whitespace := lax) in
#print axioms Multipart.C59_returns

/-- info: 'Multipart.C59_too_large' depends on axioms: [propext, Classical.choice, Quot.sound] -/
#guard_msgs (whitespace := lax) in
#print axioms Multipart.C59_too_large

/-- info: 'Multipart.C60_entries' depends on axioms: [propext, Classical.choice, Quot.sound] -/
#guard_msgs (whitespace := lax) in
#print axioms Multipart.C60_entries

/-- info: 'Multipart.C60_false' depends on axioms: [propext, Classical.choice, Quot.sound] -/
#guard_msgs (whitespace := lax) in
#print axioms Multipart.C60_false

/-- info: 'Multipart.C60_never_returns' depends on axioms: [propext, Classical.choice, Quot.sound] -/
#guard_msgs (whitespace := lax) in
#print axioms Multipart.C60_never_returns

/-- info: 'Multipart.C60_no_panic' depends on axioms: [propext, Classical.choice, Quot.sound] -/
#guard_msgs (whitespace := lax) in
#print axioms Multipart.C60_no_panic

/-- info: 'Multipart.C60_returns_partial' depends on axioms: [propext, Classical.choice, Quot.sound] -/
#guard_msgs (whitespace := lax) in
#print axioms Multipart.C60_returns_partial

/-- info: 'Multipart.C60_returns_parts_partial' depends on axioms: [propext, Classical.choice, Quot.sound] -/
#guard_msgs (whitespace := lax) in
#print axioms Multipart.C60_returns_parts_partial

/-- info: 'Multipart.C61_hyper' depends on axioms: [propext, Quot.sound] -/
#guard_msgs (whitespace := lax) in
#print axioms Multipart.C61_hyper

/-- info: 'Multipart.C61_iron' depends on axioms: [propext, Quot.sound] -/
#guard_msgs (whitespace := lax) in
#print axioms Multipart.C61_iron

/-- info: 'Multipart.C62_nickel_false' depends on axioms: [propext, Quot.sound] -/
#guard_msgs (whitespace := lax) in
#print axioms Multipart.C62_nickel_false

/-- info: 'Multipart.C62_nickel_partial' depends on axioms: [propext, Quot.sound] -/
#guard_msgs (whitespace := lax) in
#print axioms Multipart.C62_nickel_partial

/-- info: 'Multipart.C62_tiny_false' depends on axioms: [propext] -/
#guard_msgs (whitespace := lax) in
#print axioms Multipart.C62_tiny_false

/-- info: 'Multipart.C62_tiny_partial' depends on axioms: [propext, Classical.choice, Quot.sound] -/
#guard_msgs (whitespace := lax) in
#print axioms Multipart.C62_tiny_partial

/-- info: 'Multipart.C62_tiny_quotes_false' depends on axioms: [propext, Classical.choice, Quot.sound] -/
#guard_msgs (whitespace := lax) in
#print axioms Multipart.C62_tiny_quotes_false

/-- info: 'Multipart.C63_all_read' depends on axioms: [propext, Classical.choice, Quot.sound] -/
#guard_msgs (whitespace := lax) in
#print axioms Multipart.C63_all_read

/-- info: 'Multipart.C63_connection' depends on axioms: [propext, Classical.choice, Quot.sound] -/
#guard_msgs (whitespace := lax) in
#print axioms Multipart.C63_connection

/-- info: 'Multipart.C63_is_sink' depends on axioms: [propext, Classical.choice, Quot.sound] -/
#guard_msgs (whitespace := lax) in
#print axioms Multipart.C63_is_sink

/-- info: 'Multipart.C63_read' depends on axioms: [propext, Classical.choice, Quot.sound] -/
#guard_msgs (whitespace := lax) in
#print axioms Multipart.C63_read

/-- info: 'Multipart.C63_reads' depends on axioms: [propext, Classical.choice, Quot.sound] -/
#guard_msgs (whitespace := lax) in
#print axioms Multipart.C63_reads

/-- info: 'Multipart.C63_write' depends on axioms: [propext, Classical.choice, Quot.sound] -/
#guard_msgs (whitespace := lax) in
#print axioms Multipart.C63_write

/-- info: 'Multipart.C63_write_all' depends on axioms: [propext, Classical.choice, Quot.sound] -/
#guard_msgs (whitespace := lax) in
#print axioms Multipart.C63_write_all

/-- info: 'Multipart.C64_arrives_partial' depends on axioms: [propext, Quot.sound] -/
#guard_msgs (whitespace := lax) in
#print axioms Multipart.C64_arrives_partial

/-- info: 'Multipart.C64_false' depends on axioms: [propext] -/
#guard_msgs (whitespace := lax) in
#print axioms Multipart.C64_false

/-- info: 'Multipart.C64_returns' depends on axioms: [propext, Quot.sound] -/
#guard_msgs (whitespace := lax) in
#print axioms Multipart.C64_returns

/-- info: 'Multipart.C64_when' depends on axioms: [propext, Classical.choice, Quot.sound] -/
#guard_msgs (whitespace := lax) in
#print axioms Multipart.C64_when

/-- info: 'Multipart.C64_whole_partial' depends on axioms: [propext, Quot.sound] -/
#guard_msgs (whitespace := lax) in
#print axioms Multipart.C64_whole_partial

/-- info: 'Multipart.C65_handle_usable' depends on axioms: [propext, Classical.choice, Quot.sound] -/
#guard_msgs (whitespace := lax) in
#print axioms Multipart.C65_handle_usable

/-- info: 'Multipart.C65_inplace_result' depends on axioms: [propext, Classical.choice, Quot.sound] -/
#guard_msgs (whitespace := lax) in
#print axioms Multipart.C65_inplace_result

/-- info: 'Multipart.C66_always' depends on axioms: [propext, Classical.choice, Quot.sound] -/
#guard_msgs (whitespace := lax) in
#print axioms Multipart.C66_always

/-- info: 'Multipart.C66_false' depends on axioms: [propext, Quot.sound] -/
#guard_msgs (whitespace := lax) in
#print axioms Multipart.C66_false

/-- info: 'Multipart.C66_truncated_reported_partial' depends on axioms: [propext, Classical.choice, Quot.sound] -/
#guard_msgs (whitespace := lax) in
#print axioms Multipart.C66_truncated_reported_partial

/-- info: 'Multipart.C67_false' depends on axioms: [propext] -/
#guard_msgs (whitespace := lax) in
#print axioms Multipart.C67_false

/-- info: 'Multipart.C67_loses' depends on axioms: [propext, Classical.choice, Quot.sound] -/
#guard_msgs (whitespace := lax) in
#print axioms Multipart.C67_loses

/-- info: 'Multipart.C67_pieces_partial' depends on axioms: [propext, Classical.choice, Quot.sound] -/
#guard_msgs (whitespace := lax) in
#print axioms Multipart.C67_pieces_partial

/-- info: 'Multipart.C67_returns' depends on axioms: [propext, Classical.choice, Quot.sound] -/
#guard_msgs (whitespace := lax) in
#print axioms Multipart.C67_returns

/-- info: 'Multipart.C67_sent_partial' depends on axioms: [propext, Classical.choice, Quot.sound] -/
#guard_msgs (whitespace := lax) in
#print axioms Multipart.C67_sent_partial

/-- info: 'Multipart.C67_succeeds' depends on axioms: [propext, Classical.choice, Quot.sound] -/
#guard_msgs (whitespace := lax) in
#print axioms Multipart.C67_succeeds

/-- info: 'Multipart.C68_false' depends on axioms: [propext] -/
#guard_msgs (whitespace := lax) in
#print axioms Multipart.C68_false

/-- info: 'Multipart.C68_message' depends on axioms: [propext, Classical.choice, Quot.sound] -/
#guard_msgs (whitespace := lax) in
#print axioms Multipart.C68_message

/-- info: 'Multipart.C68_named_partial' depends on axioms: [propext, Classical.choice, Quot.sound] -/
#guard_msgs (whitespace := lax) in
#print axioms Multipart.C68_named_partial

/-- info: 'Multipart.C69_hyper_client' depends on axioms: [propext, Quot.sound] -/
#guard_msgs (whitespace := lax) in
#print axioms Multipart.C69_hyper_client

/-- info: 'Multipart.C70_nickel' depends on axioms: [propext, Quot.sound] -/
#guard_msgs (whitespace := lax) in
#print axioms Multipart.C70_nickel

/-- info: 'Multipart.C70_switch' depends on axioms: [propext, Quot.sound] -/
#guard_msgs (whitespace := lax) in
#print axioms Multipart.C70_switch

/-- info: 'Multipart.C70_tiny' depends on axioms: [propext, Classical.choice, Quot.sound] -/
#guard_msgs (whitespace := lax) in
#print axioms Multipart.C70_tiny

/-- info: 'Multipart.C71_open_stream' does not depend on any axioms -/
#guard_msgs (whitespace := lax) in
#print axioms Multipart.C71_open_stream

/-- info: 'Multipart.C71_received' depends on axioms: [propext, Classical.choice, Quot.sound] -/
#guard_msgs (whitespace := lax) in
#print axioms Multipart.C71_received

/-- info: 'Multipart.C71_round_trip' depends on axioms: [propext, Classical.choice, Quot.sound] -/
#guard_msgs (whitespace := lax) in
#print axioms Multipart.C71_round_trip

/-- info: 'Multipart.C71_sent' depends on axioms: [propext, Classical.choice, Quot.sound] -/
#guard_msgs (whitespace := lax) in
#print axioms Multipart.C71_sent

/-- info: 'Multipart.C72_returns' depends on axioms: [propext, Classical.choice, Quot.sound] -/
#guard_msgs (whitespace := lax) in
#print axioms Multipart.C72_returns

/-- info: 'Multipart.C73_no_leftovers' depends on axioms: [propext, Classical.choice, Quot.sound] -/
#guard_msgs (whitespace := lax) in
#print axioms Multipart.C73_no_leftovers

/-- info: 'Multipart.C74_extension' depends on axioms: [propext, Classical.choice, Quot.sound] -/
#guard_msgs (whitespace := lax) in
#print axioms Multipart.C74_extension

/-- info: 'Multipart.C74_passes' depends on axioms: [propext, Quot.sound] -/
#guard_msgs (whitespace := lax) in
#print axioms Multipart.C74_passes

/-- info: 'Multipart.C75_forced_text' depends on axioms: [propext, Classical.choice, Quot.sound] -/
#guard_msgs (whitespace := lax) in
#print axioms Multipart.C75_forced_text

/-- info: 'Multipart.C75_save_succeeds' depends on axioms: [propext, Classical.choice, Quot.sound] -/
#guard_msgs (whitespace := lax) in
#print axioms Multipart.C75_save_succeeds

/-- info: 'Multipart.C76_false' depends on axioms: [propext, Classical.choice, Quot.sound] -/
#guard_msgs (whitespace := lax) in
#print axioms Multipart.C76_false

/-- info: 'Multipart.C76_otherwise' depends on axioms: [propext, Classical.choice, Quot.sound] -/
#guard_msgs (whitespace := lax) in
#print axioms Multipart.C76_otherwise

/-- info: 'Multipart.C76_somehow' depends on axioms: [propext, Classical.choice, Quot.sound] -/
#guard_msgs (whitespace := lax) in
#print axioms Multipart.C76_somehow

/-- info: 'Multipart.C76_text_saved_partial' depends on axioms: [propext, Classical.choice, Quot.sound] -/
#guard_msgs (whitespace := lax) in
#print axioms Multipart.C76_text_saved_partial

/-- info: 'Multipart.C77_leaks' depends on axioms: [propext, Classical.choice, Quot.sound] -/
#guard_msgs (whitespace := lax) in
#print axioms Multipart.C77_leaks

/-- info: 'Multipart.C77_request_succeeds' depends on axioms: [propext, Classical.choice, Quot.sound] -/
#guard_msgs (whitespace := lax) in
#print axioms Multipart.C77_request_succeeds

/-- info: 'Multipart.C78_lazy_upload' depends on axioms: [propext, Classical.choice, Quot.sound] -/
#guard_msgs (whitespace := lax) in
#print axioms Multipart.C78_lazy_upload

/-- info: 'Multipart.C78_leaks' depends on axioms: [propext, Classical.choice, Quot.sound] -/
#guard_msgs (whitespace := lax) in
#print axioms Multipart.C78_leaks

/-- info: 'Multipart.C78_upload' depends on axioms: [propext, Classical.choice, Quot.sound] -/
#guard_msgs (whitespace := lax) in
#print axioms Multipart.C78_upload

/-- info: 'Multipart.C79_consume_beyond' depends on axioms: [propext] -/
#guard_msgs (whitespace := lax) in
#print axioms Multipart.C79_consume_beyond

/-- info: 'Multipart.C79_lost' depends on axioms: [propext, Quot.sound] -/
#guard_msgs (whitespace := lax) in
#print axioms Multipart.C79_lost

/-- info: 'Multipart.C79_readable' depends on axioms: [propext] -/
#guard_msgs (whitespace := lax) in
#print axioms Multipart.C79_readable

/-- info: 'Multipart.C79_reads_back' depends on axioms: [propext, Quot.sound] -/
#guard_msgs (whitespace := lax) in
#print axioms Multipart.C79_reads_back

/-- info: 'Multipart.C80_output' depends on axioms: [propext, Classical.choice, Quot.sound] -/
#guard_msgs (whitespace := lax) in
#print axioms Multipart.C80_output

/-- info: 'Multipart.C81_field_data' depends on axioms: [propext, Classical.choice, Quot.sound] -/
#guard_msgs (whitespace := lax) in
#print axioms Multipart.C81_field_data

/-- info: 'Multipart.C81_read_to_end' depends on axioms: [propext, Classical.choice, Quot.sound] -/
#guard_msgs (whitespace := lax) in
#print axioms Multipart.C81_read_to_end

/-- info: 'Multipart.C81_read_to_string' depends on axioms: [propext, Classical.choice, Quot.sound] -/
#guard_msgs (whitespace := lax) in
#print axioms Multipart.C81_read_to_string

/-- info: 'Multipart.C81_succeeds' depends on axioms: [propext, Classical.choice, Quot.sound] -/
#guard_msgs (whitespace := lax) in
#print axioms Multipart.C81_succeeds

/-- info: 'Multipart.C82_conversions' depends on axioms: [propext, Classical.choice, Quot.sound] -/
#guard_msgs (whitespace := lax) in
#print axioms Multipart.C82_conversions

/-- info: 'Multipart.C82_next_entry' depends on axioms: [propext, Classical.choice, Quot.sound] -/
#guard_msgs (whitespace := lax) in
#print axioms Multipart.C82_next_entry

/-- info: 'Multipart.C82_sees_parts' depends on axioms: [propext, Classical.choice, Quot.sound] -/
#guard_msgs (whitespace := lax) in
#print axioms Multipart.C82_sees_parts

/-- info: 'Multipart.C82_total' depends on axioms: [propext, Classical.choice, Quot.sound] -/
#guard_msgs (whitespace := lax) in
#print axioms Multipart.C82_total

/-- info: 'Multipart.C83_header_errors' depends on axioms: [propext, Classical.choice, Quot.sound] -/
#guard_msgs (whitespace := lax) in
#print axioms Multipart.C83_header_errors

/-- info: 'Multipart.C83_rejected' depends on axioms: [propext, Classical.choice, Quot.sound] -/
#guard_msgs (whitespace := lax) in
#print axioms Multipart.C83_rejected

/-- info: 'Multipart.C84_accepts' depends on axioms: [propext, Classical.choice, Quot.sound] -/
#guard_msgs (whitespace := lax) in
#print axioms Multipart.C84_accepts

/-- info: 'Multipart.C84_upload' depends on axioms: [propext, Classical.choice, Quot.sound] -/
#guard_msgs (whitespace := lax) in
#print axioms Multipart.C84_upload

/-- info: 'Multipart.C85_closed' depends on axioms: [propext, Classical.choice, Quot.sound] -/
#guard_msgs (whitespace := lax) in
#print axioms Multipart.C85_closed

/-- info: 'Multipart.C85_error' depends on axioms: [propext, Classical.choice, Quot.sound] -/
#guard_msgs (whitespace := lax) in
#print axioms Multipart.C85_error

/-- info: 'Multipart.C85_false' depends on axioms: [propext, Classical.choice, Quot.sound] -/
#guard_msgs (whitespace := lax) in
#print axioms Multipart.C85_false

/-- info: 'Multipart.C85_loses' depends on axioms: [propext, Classical.choice, Quot.sound] -/
#guard_msgs (whitespace := lax) in
#print axioms Multipart.C85_loses

/-- info: 'Multipart.C85_retry_partial' depends on axioms: [propext, Classical.choice, Quot.sound] -/
#guard_msgs (whitespace := lax) in
#print axioms Multipart.C85_retry_partial

/-- info: 'Multipart.C85_small_partial' depends on axioms: [propext, Classical.choice, Quot.sound] -/
#guard_msgs (whitespace := lax) in
#print axioms Multipart.C85_small_partial

/-- info: 'Multipart.C85_total' depends on axioms: [propext, Classical.choice, Quot.sound] -/
#guard_msgs (whitespace := lax) in
#print axioms Multipart.C85_total

/-- info: 'Multipart.C86_any_client' depends on axioms: [propext, Classical.choice, Quot.sound] -/
#guard_msgs (whitespace := lax) in
#print axioms Multipart.C86_any_client

/-- info: 'Multipart.C86_any_lazy' depends on axioms: [propext, Classical.choice, Quot.sound] -/
#guard_msgs (whitespace := lax) in
#print axioms Multipart.C86_any_lazy

/-- info: 'Multipart.C86_any_sized' depends on axioms: [propext, Classical.choice, Quot.sound] -/
#guard_msgs (whitespace := lax) in
#print axioms Multipart.C86_any_sized

/-- info: 'Multipart.C86_client' depends on axioms: [propext, Classical.choice, Quot.sound] -/
#guard_msgs (whitespace := lax) in
#print axioms Multipart.C86_client

/-- info: 'Multipart.C86_cut' depends on axioms: [propext, Classical.choice, Quot.sound] -/
#guard_msgs (whitespace := lax) in
#print axioms Multipart.C86_cut

/-- info: 'Multipart.C86_failed_client' depends on axioms: [propext, Classical.choice, Quot.sound] -/
#guard_msgs (whitespace := lax) in
#print axioms Multipart.C86_failed_client

/-- info: 'Multipart.C86_lazy_client' depends on axioms: [propext, Classical.choice, Quot.sound] -/
#guard_msgs (whitespace := lax) in
#print axioms Multipart.C86_lazy_client

/-- info: 'Multipart.C86_never_full' depends on axioms: [propext, Classical.choice, Quot.sound] -/
#guard_msgs (whitespace := lax) in
#print axioms Multipart.C86_never_full

/-- info: 'Multipart.C87_arrives_partial' depends on axioms: [propext, Classical.choice, Quot.sound] -/
#guard_msgs (whitespace := lax) in
#print axioms Multipart.C87_arrives_partial

/-- info: 'Multipart.C87_empty_panics' depends on axioms: [propext] -/
#guard_msgs (whitespace := lax) in
#print axioms Multipart.C87_empty_panics

/-- info: 'Multipart.C87_failed' depends on axioms: [propext, Classical.choice, Quot.sound] -/
#guard_msgs (whitespace := lax) in
#print axioms Multipart.C87_failed

/-- info: 'Multipart.C87_false' depends on axioms: [propext, Classical.choice, Quot.sound] -/
#guard_msgs (whitespace := lax) in
#print axioms Multipart.C87_false

/-- info: 'Multipart.C87_handed' depends on axioms: [propext, Classical.choice, Quot.sound] -/
#guard_msgs (whitespace := lax) in
#print axioms Multipart.C87_handed

/-- info: 'Multipart.C87_plain' depends on axioms: [propext, Classical.choice, Quot.sound] -/
#guard_msgs (whitespace := lax) in
#print axioms Multipart.C87_plain

/-- info: 'Multipart.C87_texts_cut_off' depends on axioms: [propext, Classical.choice, Quot.sound] -/
#guard_msgs (whitespace := lax) in
#print axioms Multipart.C87_texts_cut_off

/-- info: 'Multipart.C88_created_partial' depends on axioms: [propext, Quot.sound] -/
#guard_msgs (whitespace := lax) in
#print axioms Multipart.C88_created_partial

/-- info: 'Multipart.C88_false' depends on axioms: [propext] -/
#guard_msgs (whitespace := lax) in
#print axioms Multipart.C88_false

/-- info: 'Multipart.C88_no_directory' depends on axioms: [propext, Quot.sound] -/
#guard_msgs (whitespace := lax) in
#print axioms Multipart.C88_no_directory

/-- info: 'Multipart.C88_temp' depends on axioms: [propext, Quot.sound] -/
#guard_msgs (whitespace := lax) in
#print axioms Multipart.C88_temp

/-- info: 'Multipart.C88_temp_dropped' depends on axioms: [propext, Quot.sound] -/
#guard_msgs (whitespace := lax) in
#print axioms Multipart.C88_temp_dropped

/-- info: 'Multipart.C88_with_dir' depends on axioms: [propext, Quot.sound] -/
#guard_msgs (whitespace := lax) in
#print axioms Multipart.C88_with_dir

/-- info: 'Multipart.C89_false' depends on axioms: [propext] -/
#guard_msgs (whitespace := lax) in
#print axioms Multipart.C89_false

/-- info: 'Multipart.C89_leaves_memory' depends on axioms: [propext, Classical.choice, Quot.sound] -/
#guard_msgs (whitespace := lax) in
#print axioms Multipart.C89_leaves_memory

/-- info: 'Multipart.C89_max' does not depend on any axioms -/
#guard_msgs (whitespace := lax) in
#print axioms Multipart.C89_max

/-- info: 'Multipart.C89_memory_partial' depends on axioms: [propext, Classical.choice, Quot.sound] -/
#guard_msgs (whitespace := lax) in
#print axioms Multipart.C89_memory_partial

/-- info: 'Multipart.C89_no_size_limit' depends on axioms: [propext, Classical.choice, Quot.sound] -/
#guard_msgs (whitespace := lax) in
#print axioms Multipart.C89_no_size_limit

/-- info: 'Multipart.C89_request' depends on axioms: [propext, Classical.choice, Quot.sound] -/
#guard_msgs (whitespace := lax) in
#print axioms Multipart.C89_request

/-- info: 'Multipart.C89_saves_all' depends on axioms: [propext, Classical.choice, Quot.sound] -/
#guard_msgs (whitespace := lax) in
#print axioms Multipart.C89_saves_all

/-- info: 'Multipart.C90_builder' depends on axioms: [propext, Quot.sound] -/
#guard_msgs (whitespace := lax) in
#print axioms Multipart.C90_builder

/-- info: 'Multipart.C90_intercept' depends on axioms: [propext, Quot.sound] -/
#guard_msgs (whitespace := lax) in
#print axioms Multipart.C90_intercept

/-- info: 'Multipart.C90_intercept_saves' does not depend on any axioms -/
#guard_msgs (whitespace := lax) in
#print axioms Multipart.C90_intercept_saves

/-- info: 'Multipart.C90_open_options' depends on axioms: [propext, Quot.sound] -/
#guard_msgs (whitespace := lax) in
#print axioms Multipart.C90_open_options

/-- info: 'Multipart.C90_write' depends on axioms: [propext, Quot.sound] -/
#guard_msgs (whitespace := lax) in
#print axioms Multipart.C90_write

/-- info: 'Multipart.C91_accepts_partial' depends on axioms: [propext, Classical.choice, Quot.sound] -/
#guard_msgs (whitespace := lax) in
#print axioms Multipart.C91_accepts_partial

/-- info: 'Multipart.C91_false' depends on axioms: [propext] -/
#guard_msgs (whitespace := lax) in
#print axioms Multipart.C91_false

/-- info: 'Multipart.C91_intercept' depends on axioms: [propext, Quot.sound] -/
#guard_msgs (whitespace := lax) in
#print axioms Multipart.C91_intercept

/-- info: 'Multipart.C91_missing_dir' depends on axioms: [propext] -/
#guard_msgs (whitespace := lax) in
#print axioms Multipart.C91_missing_dir

/-- info: 'Multipart.C91_temp' depends on axioms: [propext, Quot.sound] -/
#guard_msgs (whitespace := lax) in
#print axioms Multipart.C91_temp

/-- info: 'Multipart.C91_temp_with_prefix' depends on axioms: [propext, Quot.sound] -/
#guard_msgs (whitespace := lax) in
#print axioms Multipart.C91_temp_with_prefix

/-- info: 'Multipart.C92_lazy' depends on axioms: [propext, Classical.choice, Quot.sound] -/
#guard_msgs (whitespace := lax) in
#print axioms Multipart.C92_lazy

/-- info: 'Multipart.C92_plain' depends on axioms: [propext, Classical.choice, Quot.sound] -/
#guard_msgs (whitespace := lax) in
#print axioms Multipart.C92_plain

/-- info: 'Multipart.C92_sized' depends on axioms: [propext, Classical.choice, Quot.sound] -/
#guard_msgs (whitespace := lax) in
#print axioms Multipart.C92_sized

/-- info: 'Multipart.C93_differs' depends on axioms: [propext, Classical.choice, Quot.sound] -/
#guard_msgs (whitespace := lax) in
#print axioms Multipart.C93_differs

/-- info: 'Multipart.C93_exact_partial' depends on axioms: [propext, Classical.choice, Quot.sound] -/
#guard_msgs (whitespace := lax) in
#print axioms Multipart.C93_exact_partial

/-- info: 'Multipart.C93_false' depends on axioms: [propext, Classical.choice, Quot.sound] -/
#guard_msgs (whitespace := lax) in
#print axioms Multipart.C93_false

/-- info: 'Multipart.C93_lazy_round_trip_partial' depends on axioms: [propext, Classical.choice, Quot.sound] -/
#guard_msgs (whitespace := lax) in
#print axioms Multipart.C93_lazy_round_trip_partial

/-- info: 'Multipart.C93_reads_partial' depends on axioms: [propext, Quot.sound] -/
#guard_msgs (whitespace := lax) in
#print axioms Multipart.C93_reads_partial

/-- info: 'Multipart.C93_round_trip_partial' depends on axioms: [propext, Classical.choice, Quot.sound] -/
#guard_msgs (whitespace := lax) in
#print axioms Multipart.C93_round_trip_partial

/-- info: 'Multipart.C93_same_partial' depends on axioms: [propext, Quot.sound] -/
#guard_msgs (whitespace := lax) in
#print axioms Multipart.C93_same_partial

/-- info: 'Multipart.C93_saved_partial' depends on axioms: [propext, Quot.sound] -/
#guard_msgs (whitespace := lax) in
#print axioms Multipart.C93_saved_partial

/-- info: 'Multipart.C93_session_partial' depends on axioms: [propext, Quot.sound] -/
#guard_msgs (whitespace := lax) in
#print axioms Multipart.C93_session_partial

/-- info: 'Multipart.C94_reasons' depends on axioms: [propext, Classical.choice, Quot.sound] -/
#guard_msgs (whitespace := lax) in
#print axioms Multipart.C94_reasons

/-- info: 'Multipart.C94_small' depends on axioms: [propext, Classical.choice, Quot.sound] -/
#guard_msgs (whitespace := lax) in
#print axioms Multipart.C94_small

/-- info: 'Multipart.C95_crash' depends on axioms: [propext, Classical.choice, Quot.sound] -/
#guard_msgs (whitespace := lax) in
#print axioms Multipart.C95_crash

/-- info: 'Multipart.C95_false' depends on axioms: [propext, Classical.choice, Quot.sound] -/
#guard_msgs (whitespace := lax) in
#print axioms Multipart.C95_false

/-- info: 'Multipart.C95_hyper' depends on axioms: [propext, Classical.choice, Quot.sound] -/
#guard_msgs (whitespace := lax) in
#print axioms Multipart.C95_hyper

/-- info: 'Multipart.C95_iron_partial' depends on axioms: [propext, Classical.choice, Quot.sound] -/
#guard_msgs (whitespace := lax) in
#print axioms Multipart.C95_iron_partial

/-- info: 'Multipart.C95_nickel' depends on axioms: [propext, Classical.choice, Quot.sound] -/
#guard_msgs (whitespace := lax) in
#print axioms Multipart.C95_nickel

/-- info: 'Multipart.C95_rocket' depends on axioms: [propext, Classical.choice, Quot.sound] -/
#guard_msgs (whitespace := lax) in
#print axioms Multipart.C95_rocket

/-- info: 'Multipart.C95_tiny_partial' depends on axioms: [propext, Classical.choice, Quot.sound] -/
#guard_msgs (whitespace := lax) in
#print axioms Multipart.C95_tiny_partial

/-- info: 'Multipart.C95_uploads' depends on axioms: [propext, Classical.choice, Quot.sound] -/
#guard_msgs (whitespace := lax) in
#print axioms Multipart.C95_uploads

/-- info: 'Multipart.C96_fuzz' depends on axioms: [propext, Classical.choice, Quot.sound] -/
#guard_msgs (whitespace := lax) in
#print axioms Multipart.C96_fuzz

/-- info: 'Multipart.C97_fails_somehow' depends on axioms: [propext, Classical.choice, Quot.sound] -/
#guard_msgs (whitespace := lax) in
#print axioms Multipart.C97_fails_somehow

/-- info: 'Multipart.C97_false' depends on axioms: [propext, Classical.choice, Quot.sound] -/
#guard_msgs (whitespace := lax) in
#print axioms Multipart.C97_false

/-- info: 'Multipart.C97_names_partial' depends on axioms: [propext, Classical.choice, Quot.sound] -/
#guard_msgs (whitespace := lax) in
#print axioms Multipart.C97_names_partial

/-- info: 'Multipart.C97_returns' depends on axioms: [propext, Classical.choice, Quot.sound] -/
#guard_msgs (whitespace := lax) in
#print axioms Multipart.C97_returns

/-- info: 'Multipart.C97_short_partial' depends on axioms: [propext, Classical.choice, Quot.sound] -/
#guard_msgs (whitespace := lax) in
#print axioms Multipart.C97_short_partial

/-- info: 'Multipart.C97_small_partial' depends on axioms: [propext, Classical.choice, Quot.sound] -/
#guard_msgs (whitespace := lax) in
#print axioms Multipart.C97_small_partial

/-- info: 'Multipart.C98_body' depends on axioms: [propext, Classical.choice, Quot.sound] -/
#guard_msgs (whitespace := lax) in
#print axioms Multipart.C98_body

/-- info: 'Multipart.C98_files' depends on axioms: [propext, Classical.choice, Quot.sound] -/
#guard_msgs (whitespace := lax) in
#print axioms Multipart.C98_files

/-- info: 'Multipart.C98_memory' depends on axioms: [propext, Classical.choice, Quot.sound] -/
#guard_msgs (whitespace := lax) in
#print axioms Multipart.C98_memory

/-- info: 'Multipart.C99_do_test' depends on axioms: [propext, Classical.choice, Quot.sound] -/
#guard_msgs (whitespace := lax) in
#print axioms Multipart.C99_do_test

/-- info: 'Multipart.C99_pass_means' depends on axioms: [propext, Classical.choice, Quot.sound] -/
#guard_msgs (whitespace := lax) in
#print axioms Multipart.C99_pass_means

/-- info: 'Multipart.C99_small_bodies' depends on axioms: [propext, Classical.choice, Quot.sound] -/
#guard_msgs (whitespace := lax) in
#print axioms Multipart.C99_small_bodies

/-- info: 'Multipart.C99_tests_pass' depends on axioms: [propext, Classical.choice, Quot.sound] -/
#guard_msgs (whitespace := lax) in
#print axioms Multipart.C99_tests_pass

/-- info: 'Multipart.C100_entries' depends on axioms: [propext, Classical.choice, Quot.sound] -/
#guard_msgs (whitespace := lax) in
#print axioms Multipart.C100_entries

/-- info: 'Multipart.C100_field' depends on axioms: [propext, Classical.choice, Quot.sound] -/
#guard_msgs (whitespace := lax) in
#print axioms Multipart.C100_field

/-- info: 'Multipart.C100_lazy_round_trip' depends on axioms: [propext, Classical.choice, Quot.sound] -/
#guard_msgs (whitespace := lax) in
#print axioms Multipart.C100_lazy_round_trip

/-- info: 'Multipart.C100_round_trip' depends on axioms: [propext, Classical.choice, Quot.sound] -/
#guard_msgs (whitespace := lax) in
#print axioms Multipart.C100_round_trip

/-- info: 'Multipart.C100_sharp' depends on axioms: [propext, Classical.choice, Quot.sound] -/
#guard_msgs (whitespace := lax) in
#print axioms Multipart.C100_sharp

/-- info: 'Multipart.C100_total' depends on axioms: [propext, Classical.choice, Quot.sound] -/
#guard_msgs (whitespace := lax) in
#print axioms Multipart.C100_total

/-- info: 'Multipart.C101_builder' depends on axioms: [propext, Classical.choice, Quot.sound] -/
#guard_msgs (whitespace := lax) in
#print axioms Multipart.C101_builder

/-- info: 'Multipart.C101_client' depends on axioms: [propext, Classical.choice, Quot.sound] -/
#guard_msgs (whitespace := lax) in
#print axioms Multipart.C101_client

/-- info: 'Multipart.C101_no_file' depends on axioms: [propext, Classical.choice, Quot.sound] -/
#guard_msgs (whitespace := lax) in
#print axioms Multipart.C101_no_file

/-- info: 'Multipart.C102_form_test' depends on axioms: [propext, Classical.choice, Quot.sound] -/
#guard_msgs (whitespace := lax) in
#print axioms Multipart.C102_form_test

/-- info: 'Multipart.C103_arrives' depends on axioms: [propext, Classical.choice, Quot.sound] -/
#guard_msgs (whitespace := lax) in
#print axioms Multipart.C103_arrives

/-- info: 'Multipart.C103_count' depends on axioms: [propext, Classical.choice, Quot.sound] -/
#guard_msgs (whitespace := lax) in
#print axioms Multipart.C103_count

/-- info: 'Multipart.C103_few' depends on axioms: [propext, Quot.sound] -/
#guard_msgs (whitespace := lax) in
#print axioms Multipart.C103_few

/-- info: 'Multipart.C103_uniform' depends on axioms: [propext, Classical.choice, Quot.sound] -/
#guard_msgs (whitespace := lax) in
#print axioms Multipart.C103_uniform

/-- info: 'Multipart.C104_cut_off' depends on axioms: [propext, Classical.choice, Quot.sound] -/
#guard_msgs (whitespace := lax) in
#print axioms Multipart.C104_cut_off

/-- info: 'Multipart.C104_false' depends on axioms: [propext, Classical.choice, Quot.sound] -/
#guard_msgs (whitespace := lax) in
#print axioms Multipart.C104_false

/-- info: 'Multipart.C104_no_directory' depends on axioms: [propext] -/
#guard_msgs (whitespace := lax) in
#print axioms Multipart.C104_no_directory

/-- info: 'Multipart.C104_not_multipart' depends on axioms: [propext, Quot.sound] -/
#guard_msgs (whitespace := lax) in
#print axioms Multipart.C104_not_multipart

/-- info: 'Multipart.C104_refused_partial' depends on axioms: [propext, Classical.choice, Quot.sound] -/
#guard_msgs (whitespace := lax) in
#print axioms Multipart.C104_refused_partial

/-- info: 'Multipart.C105_cut' depends on axioms: [propext, Classical.choice, Quot.sound] -/
#guard_msgs (whitespace := lax) in
#print axioms Multipart.C105_cut

/-- info: 'Multipart.C105_saved_as_read' depends on axioms: [propext, Classical.choice, Quot.sound] -/
#guard_msgs (whitespace := lax) in
#print axioms Multipart.C105_saved_as_read

/-- info: 'Multipart.C106_answers' depends on axioms: [propext, Classical.choice, Quot.sound] -/
#guard_msgs (whitespace := lax) in
#print axioms Multipart.C106_answers

/-- info: 'Multipart.C106_clean' depends on axioms: [propext, Classical.choice, Quot.sound] -/
#guard_msgs (whitespace := lax) in
#print axioms Multipart.C106_clean

/-- info: 'Multipart.C106_false' depends on axioms: [propext, Classical.choice, Quot.sound] -/
#guard_msgs (whitespace := lax) in
#print axioms Multipart.C106_false

/-- info: 'Multipart.C106_others' depends on axioms: [propext, Classical.choice, Quot.sound] -/
#guard_msgs (whitespace := lax) in
#print axioms Multipart.C106_others

/-- info: 'Multipart.C106_shown_partial' depends on axioms: [propext, Classical.choice, Quot.sound] -/
#guard_msgs (whitespace := lax) in
#print axioms Multipart.C106_shown_partial

/-- info: 'Multipart.C106_size_text' depends on axioms: [propext] -/
#guard_msgs (whitespace := lax) in
#print axioms Multipart.C106_size_text

/-- info: 'Multipart.C106_status' depends on axioms: [propext] -/
#guard_msgs (whitespace := lax) in
#print axioms Multipart.C106_status

/-- info: 'Multipart.C106_too_large' depends on axioms: [propext, Classical.choice, Quot.sound] -/
#guard_msgs (whitespace := lax) in
#print axioms Multipart.C106_too_large

/-- info: 'Multipart.C107_false' depends on axioms: [propext, Quot.sound] -/
#guard_msgs (whitespace := lax) in
#print axioms Multipart.C107_false

/-- info: 'Multipart.C107_min_buffer_partial' depends on axioms: [propext, Classical.choice, Quot.sound] -/
#guard_msgs (whitespace := lax) in
#print axioms Multipart.C107_min_buffer_partial

/-- info: 'Multipart.C107_no_read' depends on axioms: [propext, Classical.choice, Quot.sound] -/
#guard_msgs (whitespace := lax) in
#print axioms Multipart.C107_no_read

/-- info: 'Multipart.C107_sharp' depends on axioms: [propext, Quot.sound] -/
#guard_msgs (whitespace := lax) in
#print axioms Multipart.C107_sharp

/-- info: 'Multipart.C108_examples' depends on axioms: [propext, Classical.choice, Quot.sound] -/
#guard_msgs (whitespace := lax) in
#print axioms Multipart.C108_examples

/-- info: 'Multipart.C108_too_large' depends on axioms: [propext, Classical.choice, Quot.sound] -/
#guard_msgs (whitespace := lax) in
#print axioms Multipart.C108_too_large

/-- info: 'Multipart.C109_disconnected' depends on axioms: [propext] -/
#guard_msgs (whitespace := lax) in
#print axioms Multipart.C109_disconnected

/-- info: 'Multipart.C109_not_shown' depends on axioms: [propext, Classical.choice, Quot.sound] -/
#guard_msgs (whitespace := lax) in
#print axioms Multipart.C109_not_shown

/-- info: 'Multipart.C110_accepts_partial' depends on axioms: [propext, Classical.choice, Quot.sound] -/
#guard_msgs (whitespace := lax) in
#print axioms Multipart.C110_accepts_partial

/-- info: 'Multipart.C110_fails_somehow' depends on axioms: [propext, Classical.choice, Quot.sound] -/
#guard_msgs (whitespace := lax) in
#print axioms Multipart.C110_fails_somehow

/-- info: 'Multipart.C110_false' depends on axioms: [propext, Classical.choice, Quot.sound] -/
#guard_msgs (whitespace := lax) in
#print axioms Multipart.C110_false

/-- info: 'Multipart.C110_passes_partial' depends on axioms: [propext, Classical.choice, Quot.sound] -/
#guard_msgs (whitespace := lax) in
#print axioms Multipart.C110_passes_partial

/-- info: 'Multipart.C111_always' depends on axioms: [propext, Classical.choice, Quot.sound] -/
#guard_msgs (whitespace := lax) in
#print axioms Multipart.C111_always

/-- info: 'Multipart.C111_complaints' depends on axioms: [propext, Classical.choice, Quot.sound] -/
#guard_msgs (whitespace := lax) in
#print axioms Multipart.C111_complaints

/-- info: 'Multipart.C111_exact' depends on axioms: [propext, Classical.choice, Quot.sound] -/
#guard_msgs (whitespace := lax) in
#print axioms Multipart.C111_exact

/-- info: 'Multipart.C111_message' depends on axioms: [propext, Classical.choice, Quot.sound] -/
#guard_msgs (whitespace := lax) in
#print axioms Multipart.C111_message

/-- info: 'Multipart.C111_unfinished' depends on axioms: [propext, Classical.choice, Quot.sound] -/
#guard_msgs (whitespace := lax) in
#print axioms Multipart.C111_unfinished

/-- info: 'Multipart.C112_false' depends on axioms: [propext, Classical.choice, Quot.sound] -/
#guard_msgs (whitespace := lax) in
#print axioms Multipart.C112_false

/-- info: 'Multipart.C112_false_contents' depends on axioms: [propext, Classical.choice, Quot.sound] -/
#guard_msgs (whitespace := lax) in
#print axioms Multipart.C112_false_contents

/-- info: 'Multipart.C112_false_filename' depends on axioms: [propext, Classical.choice, Quot.sound] -/
#guard_msgs (whitespace := lax) in
#print axioms Multipart.C112_false_filename

/-- info: 'Multipart.C112_false_type' depends on axioms: [propext, Classical.choice, Quot.sound] -/
#guard_msgs (whitespace := lax) in
#print axioms Multipart.C112_false_type

/-- info: 'Multipart.C112_lazy_no_more_parts' depends on axioms: [propext, Classical.choice, Quot.sound] -/
#guard_msgs (whitespace := lax) in
#print axioms Multipart.C112_lazy_no_more_parts

/-- info: 'Multipart.C112_lazy_one_line_partial' depends on axioms: [propext, Classical.choice, Quot.sound] -/
#guard_msgs (whitespace := lax) in
#print axioms Multipart.C112_lazy_one_line_partial

/-- info: 'Multipart.C112_no_more_parts' depends on axioms: [propext, Classical.choice, Quot.sound] -/
#guard_msgs (whitespace := lax) in
#print axioms Multipart.C112_no_more_parts

/-- info: 'Multipart.C112_no_semicolon_partial' depends on axioms: [propext, Classical.choice, Quot.sound] -/
#guard_msgs (whitespace := lax) in
#print axioms Multipart.C112_no_semicolon_partial

/-- info: 'Multipart.C112_one_line_partial' depends on axioms: [propext, Classical.choice, Quot.sound] -/
#guard_msgs (whitespace := lax) in
#print axioms Multipart.C112_one_line_partial

/-- info: 'Multipart.C113_exact' depends on axioms: [propext, Classical.choice, Quot.sound] -/
#guard_msgs (whitespace := lax) in
#print axioms Multipart.C113_exact

/-- info: 'Multipart.C113_false' depends on axioms: [propext] -/
#guard_msgs (whitespace := lax) in
#print axioms Multipart.C113_false

/-- info: 'Multipart.C113_holds_partial' depends on axioms: [propext, Classical.choice, Quot.sound] -/
#guard_msgs (whitespace := lax) in
#print axioms Multipart.C113_holds_partial

/-- info: 'Multipart.C113_others' depends on axioms: [propext, Classical.choice, Quot.sound] -/
#guard_msgs (whitespace := lax) in
#print axioms Multipart.C113_others

/-- info: 'Multipart.C113_refused' depends on axioms: [propext, Classical.choice, Quot.sound] -/
#guard_msgs (whitespace := lax) in
#print axioms Multipart.C113_refused

/-- info: 'Multipart.C114_buffer' depends on axioms: [propext, Classical.choice, Quot.sound] -/
#guard_msgs (whitespace := lax) in
#print axioms Multipart.C114_buffer

/-- info: 'Multipart.C114_read_ahead' depends on axioms: [propext, Classical.choice, Quot.sound] -/
#guard_msgs (whitespace := lax) in
#print axioms Multipart.C114_read_ahead

/-- info: 'Multipart.C114_saving' depends on axioms: [propext, Classical.choice, Quot.sound] -/
#guard_msgs (whitespace := lax) in
#print axioms Multipart.C114_saving

/-- info: 'Multipart.C114_sharp' depends on axioms: [propext, Quot.sound] -/
#guard_msgs (whitespace := lax) in
#print axioms Multipart.C114_sharp

/-- info: 'Multipart.C115_few' depends on axioms: [propext, Classical.choice, Quot.sound] -/
#guard_msgs (whitespace := lax) in
#print axioms Multipart.C115_few

/-- info: 'Multipart.C115_names' depends on axioms: [propext, Quot.sound] -/
#guard_msgs (whitespace := lax) in
#print axioms Multipart.C115_names

/-- info: 'Multipart.C115_saved' depends on axioms: [propext, Classical.choice, Quot.sound] -/
#guard_msgs (whitespace := lax) in
#print axioms Multipart.C115_saved

/-- info: 'Multipart.C115_taken' depends on axioms: [propext, Classical.choice, Quot.sound] -/
#guard_msgs (whitespace := lax) in
#print axioms Multipart.C115_taken

/-- info: 'Multipart.C115_uniform' depends on axioms: [propext, Classical.choice, Quot.sound] -/
#guard_msgs (whitespace := lax) in
#print axioms Multipart.C115_uniform

/-- info: 'Multipart.C116_false' depends on axioms: [propext, Classical.choice, Quot.sound] -/
#guard_msgs (whitespace := lax) in
#print axioms Multipart.C116_false

/-- info: 'Multipart.C116_read_partial' depends on axioms: [propext, Classical.choice, Quot.sound] -/
#guard_msgs (whitespace := lax) in
#print axioms Multipart.C116_read_partial

/-- info: 'Multipart.C116_saved_partial' depends on axioms: [propext, Classical.choice, Quot.sound] -/
#guard_msgs (whitespace := lax) in
#print axioms Multipart.C116_saved_partial

/-- info: 'Multipart.C117_bodies' depends on axioms: [propext, Classical.choice, Quot.sound] -/
#guard_msgs (whitespace := lax) in
#print axioms Multipart.C117_bodies

/-- info: 'Multipart.C117_headers' depends on axioms: [propext, Classical.choice, Quot.sound] -/
#guard_msgs (whitespace := lax) in
#print axioms Multipart.C117_headers

/-- info: 'Multipart.C117_order' depends on axioms: [propext, Quot.sound] -/
#guard_msgs (whitespace := lax) in
#print axioms Multipart.C117_order

/-- info: 'Multipart.C118_determines_partial' depends on axioms: [propext, Classical.choice, Quot.sound] -/
#guard_msgs (whitespace := lax) in
#print axioms Multipart.C118_determines_partial

/-- info: 'Multipart.C118_false' depends on axioms: [propext, Quot.sound] -/
#guard_msgs (whitespace := lax) in
#print axioms Multipart.C118_false

/-- info: 'Multipart.C118_lazy_partial' depends on axioms: [propext, Classical.choice, Quot.sound] -/
#guard_msgs (whitespace := lax) in
#print axioms Multipart.C118_lazy_partial

/-- info: 'Multipart.C119_all_saved' depends on axioms: [propext, Classical.choice, Quot.sound] -/
#guard_msgs (whitespace := lax) in
#print axioms Multipart.C119_all_saved

/-- info: 'Multipart.C119_files_kept' depends on axioms: [propext, Classical.choice, Quot.sound] -/
#guard_msgs (whitespace := lax) in
#print axioms Multipart.C119_files_kept

/-- info: 'Multipart.C119_kept' depends on axioms: [propext, Classical.choice, Quot.sound] -/
#guard_msgs (whitespace := lax) in
#print axioms Multipart.C119_kept

/-- info: 'Multipart.C120_never_full' depends on axioms: [propext, Classical.choice, Quot.sound] -/
#guard_msgs (whitespace := lax) in
#print axioms Multipart.C120_never_full

/-- info: 'Multipart.C120_reads' depends on axioms: [propext, Classical.choice, Quot.sound] -/
#guard_msgs (whitespace := lax) in
#print axioms Multipart.C120_reads

/-- info: 'Multipart.C120_saves' depends on axioms: [propext, Classical.choice, Quot.sound] -/
#guard_msgs (whitespace := lax) in
#print axioms Multipart.C120_saves

/-- info: 'Multipart.C120_which' depends on axioms: [propext, Classical.choice, Quot.sound] -/
#guard_msgs (whitespace := lax) in
#print axioms Multipart.C120_which

/-- info: 'Multipart.C121_refused' depends on axioms: [propext, Classical.choice, Quot.sound] -/
#guard_msgs (whitespace := lax) in
#print axioms Multipart.C121_refused

/-- info: 'Multipart.C121_saves' depends on axioms: [propext, Classical.choice, Quot.sound] -/
#guard_msgs (whitespace := lax) in
#print axioms Multipart.C121_saves

/-- info: 'Multipart.C122_ends_partial' depends on axioms: [propext, Classical.choice, Quot.sound] -/
#guard_msgs (whitespace := lax) in
#print axioms Multipart.C122_ends_partial

/-- info: 'Multipart.C122_false' depends on axioms: [propext, Quot.sound] -/
#guard_msgs (whitespace := lax) in
#print axioms Multipart.C122_false

/-- info: 'Multipart.C122_reads_partial' depends on axioms: [propext, Classical.choice, Quot.sound] -/
#guard_msgs (whitespace := lax) in
#print axioms Multipart.C122_reads_partial

/-- info: 'Multipart.C123_forward' depends on axioms: [propext, Classical.choice, Quot.sound] -/
#guard_msgs (whitespace := lax) in
#print axioms Multipart.C123_forward

/-- info: 'Multipart.C123_lazy' depends on axioms: [propext, Classical.choice, Quot.sound] -/
#guard_msgs (whitespace := lax) in
#print axioms Multipart.C123_lazy

/-- info: 'Multipart.C123_names' depends on axioms: [propext, Classical.choice, Quot.sound] -/
#guard_msgs (whitespace := lax) in
#print axioms Multipart.C123_names

/-- info: 'Multipart.C123_proxy' depends on axioms: [propext, Classical.choice, Quot.sound] -/
#guard_msgs (whitespace := lax) in
#print axioms Multipart.C123_proxy

/-- info: 'Multipart.C124_ends' depends on axioms: [propext, Classical.choice, Quot.sound] -/
#guard_msgs (whitespace := lax) in
#print axioms Multipart.C124_ends

/-- info: 'Multipart.C124_false' depends on axioms: [propext, Classical.choice, Quot.sound] -/
#guard_msgs (whitespace := lax) in
#print axioms Multipart.C124_false

/-- info: 'Multipart.C124_full' depends on axioms: [propext, Classical.choice, Quot.sound] -/
#guard_msgs (whitespace := lax) in
#print axioms Multipart.C124_full

/-- info: 'Multipart.C124_resume_partial' depends on axioms: [propext, Classical.choice, Quot.sound] -/
#guard_msgs (whitespace := lax) in
#print axioms Multipart.C124_resume_partial

/-- info: 'Multipart.C124_small_partial' depends on axioms: [propext, Classical.choice, Quot.sound] -/
#guard_msgs (whitespace := lax) in
#print axioms Multipart.C124_small_partial

/-- info: 'Multipart.C125_only_itself' depends on axioms: [propext, Classical.choice, Quot.sound] -/
#guard_msgs (whitespace := lax) in
#print axioms Multipart.C125_only_itself

/-- info: 'Multipart.C125_reaches_full' depends on axioms: [propext, Classical.choice, Quot.sound] -/
#guard_msgs (whitespace := lax) in
#print axioms Multipart.C125_reaches_full

/-- info: 'Multipart.C126_empty_partial' depends on axioms: [propext, Classical.choice, Quot.sound] -/
#guard_msgs (whitespace := lax) in
#print axioms Multipart.C126_empty_partial

/-- info: 'Multipart.C126_false' depends on axioms: [propext, Classical.choice, Quot.sound] -/
#guard_msgs (whitespace := lax) in
#print axioms Multipart.C126_false

/-- info: 'Multipart.C126_goes_on' depends on axioms: [propext, Quot.sound] -/
#guard_msgs (whitespace := lax) in
#print axioms Multipart.C126_goes_on

/-- info: 'Multipart.C126_reads' depends on axioms: [propext, Classical.choice, Quot.sound] -/
#guard_msgs (whitespace := lax) in
#print axioms Multipart.C126_reads

/-- info: 'Multipart.C126_refused' depends on axioms: [propext, Quot.sound] -/
#guard_msgs (whitespace := lax) in
#print axioms Multipart.C126_refused

/-- info: 'Multipart.C127_any_body' depends on axioms: [propext, Classical.choice, Quot.sound] -/
#guard_msgs (whitespace := lax) in
#print axioms Multipart.C127_any_body

/-- info: 'Multipart.C127_decided_partial' depends on axioms: [propext, Classical.choice, Quot.sound] -/
#guard_msgs (whitespace := lax) in
#print axioms Multipart.C127_decided_partial

/-- info: 'Multipart.C127_false' depends on axioms: [propext, Classical.choice, Quot.sound] -/
#guard_msgs (whitespace := lax) in
#print axioms Multipart.C127_false

/-- info: 'Multipart.C127_full_partial' depends on axioms: [propext, Classical.choice, Quot.sound] -/
#guard_msgs (whitespace := lax) in
#print axioms Multipart.C127_full_partial

/-- info: 'Multipart.C127_same_partial' depends on axioms: [propext, Classical.choice, Quot.sound] -/
#guard_msgs (whitespace := lax) in
#print axioms Multipart.C127_same_partial

/-- info: 'Multipart.C128_held_back' depends on axioms: [propext, Classical.choice, Quot.sound] -/
#guard_msgs (whitespace := lax) in
#print axioms Multipart.C128_held_back

/-- info: 'Multipart.C128_how_much' depends on axioms: [propext, Classical.choice, Quot.sound] -/
#guard_msgs (whitespace := lax) in
#print axioms Multipart.C128_how_much

/-- info: 'Multipart.C129_not_again' depends on axioms: [propext, Classical.choice, Quot.sound] -/
#guard_msgs (whitespace := lax) in
#print axioms Multipart.C129_not_again

/-- info: 'Multipart.C129_parses_once' depends on axioms: [propext, Classical.choice, Quot.sound] -/
#guard_msgs (whitespace := lax) in
#print axioms Multipart.C129_parses_once

/-- info: 'Multipart.C129_rounds' depends on axioms: [propext, Classical.choice, Quot.sound] -/
#guard_msgs (whitespace := lax) in
#print axioms Multipart.C129_rounds

/-- info: 'Multipart.C130_early' depends on axioms: [propext, Classical.choice, Quot.sound] -/
#guard_msgs (whitespace := lax) in
#print axioms Multipart.C130_early

/-- info: 'Multipart.C130_only_arrived' depends on axioms: [propext, Classical.choice, Quot.sound] -/
#guard_msgs (whitespace := lax) in
#print axioms Multipart.C130_only_arrived

/-- info: 'Multipart.C131_data_partial' depends on axioms: [propext, Classical.choice, Quot.sound] -/
#guard_msgs (whitespace := lax) in
#print axioms Multipart.C131_data_partial

/-- info: 'Multipart.C131_entry_waits' depends on axioms: [propext, Classical.choice, Quot.sound] -/
#guard_msgs (whitespace := lax) in
#print axioms Multipart.C131_entry_waits

/-- info: 'Multipart.C131_false' depends on axioms: [propext, Quot.sound] -/
#guard_msgs (whitespace := lax) in
#print axioms Multipart.C131_false

/-- info: 'Multipart.C131_more_partial' depends on axioms: [propext, Classical.choice, Quot.sound] -/
#guard_msgs (whitespace := lax) in
#print axioms Multipart.C131_more_partial

/-- info: 'Multipart.C131_waits' depends on axioms: [propext, Quot.sound] -/
#guard_msgs (whitespace := lax) in
#print axioms Multipart.C131_waits

/-- info: 'Multipart.C132_count' depends on axioms: [propext, Quot.sound] -/
#guard_msgs (whitespace := lax) in
#print axioms Multipart.C132_count

/-- info: 'Multipart.C132_false' depends on axioms: [propext, Quot.sound] -/
#guard_msgs (whitespace := lax) in
#print axioms Multipart.C132_false

/-- info: 'Multipart.C132_false_size' depends on axioms: [propext] -/
#guard_msgs (whitespace := lax) in
#print axioms Multipart.C132_false_size

/-- info: 'Multipart.C132_request_size_partial' depends on axioms: [propext, Quot.sound] -/
#guard_msgs (whitespace := lax) in
#print axioms Multipart.C132_request_size_partial

/-- info: 'Multipart.C132_size_partial' depends on axioms: [propext, Quot.sound] -/
#guard_msgs (whitespace := lax) in
#print axioms Multipart.C132_size_partial

/-- info: 'Multipart.C133_field' depends on axioms: [propext, Classical.choice, Quot.sound] -/
#guard_msgs (whitespace := lax) in
#print axioms Multipart.C133_field

/-- info: 'Multipart.C133_field_early' depends on axioms: [propext, Classical.choice, Quot.sound] -/
#guard_msgs (whitespace := lax) in
#print axioms Multipart.C133_field_early

/-- info: 'Multipart.C133_refused' depends on axioms: [propext, Classical.choice, Quot.sound] -/
#guard_msgs (whitespace := lax) in
#print axioms Multipart.C133_refused

/-- info: 'Multipart.C133_request' depends on axioms: [propext, Classical.choice, Quot.sound] -/
#guard_msgs (whitespace := lax) in
#print axioms Multipart.C133_request

/-- info: 'Multipart.C133_request_early' depends on axioms: [propext, Classical.choice, Quot.sound] -/
#guard_msgs (whitespace := lax) in
#print axioms Multipart.C133_request_early

/-- info: 'Multipart.C134_longer_boundary' depends on axioms: [propext, Classical.choice, Quot.sound] -/
#guard_msgs (whitespace := lax) in
#print axioms Multipart.C134_longer_boundary

/-- info: 'Multipart.C134_nested' depends on axioms: [propext, Classical.choice, Quot.sound] -/
#guard_msgs (whitespace := lax) in
#print axioms Multipart.C134_nested

/-- info: 'Multipart.C134_served' depends on axioms: [propext, Classical.choice, Quot.sound] -/
#guard_msgs (whitespace := lax) in
#print axioms Multipart.C134_served

/-- info: 'Multipart.C134_total' depends on axioms: [propext, Classical.choice, Quot.sound] -/
#guard_msgs (whitespace := lax) in
#print axioms Multipart.C134_total

/-- info: 'Multipart.C135_false' depends on axioms: [propext, Classical.choice, Quot.sound] -/
#guard_msgs (whitespace := lax) in
#print axioms Multipart.C135_false

/-- info: 'Multipart.C135_field' depends on axioms: [propext, Classical.choice, Quot.sound] -/
#guard_msgs (whitespace := lax) in
#print axioms Multipart.C135_field

/-- info: 'Multipart.C135_no_delimiter' depends on axioms: [propext, Classical.choice, Quot.sound] -/
#guard_msgs (whitespace := lax) in
#print axioms Multipart.C135_no_delimiter

/-- info: 'Multipart.C135_request_partial' depends on axioms: [propext, Classical.choice, Quot.sound] -/
#guard_msgs (whitespace := lax) in
#print axioms Multipart.C135_request_partial

/-- info: 'Multipart.C136_case' depends on axioms: [propext, Classical.choice, Quot.sound] -/
#guard_msgs (whitespace := lax) in
#print axioms Multipart.C136_case

/-- info: 'Multipart.C136_false' depends on axioms: [propext, Classical.choice, Quot.sound] -/
#guard_msgs (whitespace := lax) in
#print axioms Multipart.C136_false

/-- info: 'Multipart.C136_quoted' depends on axioms: [propext, Classical.choice, Quot.sound] -/
#guard_msgs (whitespace := lax) in
#print axioms Multipart.C136_quoted

/-- info: 'Multipart.C136_value' depends on axioms: [propext, Classical.choice, Quot.sound] -/
#guard_msgs (whitespace := lax) in
#print axioms Multipart.C136_value

/-- info: 'Multipart.C136_when_partial' depends on axioms: [propext, Classical.choice, Quot.sound] -/
#guard_msgs (whitespace := lax) in
#print axioms Multipart.C136_when_partial

/-- info: 'Multipart.C137_false' depends on axioms: [propext] -/
#guard_msgs (whitespace := lax) in
#print axioms Multipart.C137_false

/-- info: 'Multipart.C137_field' depends on axioms: [propext, Quot.sound] -/
#guard_msgs (whitespace := lax) in
#print axioms Multipart.C137_field

/-- info: 'Multipart.C137_request_partial' depends on axioms: [propext, Classical.choice, Quot.sound] -/
#guard_msgs (whitespace := lax) in
#print axioms Multipart.C137_request_partial

/-- info: 'Multipart.C138_bounded' depends on axioms: [propext, Classical.choice, Quot.sound] -/
#guard_msgs (whitespace := lax) in
#print axioms Multipart.C138_bounded

/-- info: 'Multipart.C139_all_saved' depends on axioms: [propext, Classical.choice, Quot.sound] -/
#guard_msgs (whitespace := lax) in
#print axioms Multipart.C139_all_saved

/-- info: 'Multipart.C139_alone' depends on axioms: [propext, Quot.sound] -/
#guard_msgs (whitespace := lax) in
#print axioms Multipart.C139_alone

/-- info: 'Multipart.C139_own_files' depends on axioms: [propext, Classical.choice, Quot.sound] -/
#guard_msgs (whitespace := lax) in
#print axioms Multipart.C139_own_files

/-- info: 'Multipart.C139_own_parts' depends on axioms: [propext, Classical.choice, Quot.sound] -/
#guard_msgs (whitespace := lax) in
#print axioms Multipart.C139_own_parts

/-- info: 'Multipart.C140_forever' depends on axioms: [propext, Classical.choice, Quot.sound] -/
#guard_msgs (whitespace := lax) in
#print axioms Multipart.C140_forever

/-- info: 'Multipart.C140_request' depends on axioms: [propext, Classical.choice, Quot.sound] -/
#guard_msgs (whitespace := lax) in
#print axioms Multipart.C140_request

/-- info: 'Multipart.C141_alone' depends on axioms: [propext, Classical.choice, Quot.sound] -/
#guard_msgs (whitespace := lax) in
#print axioms Multipart.C141_alone

/-- info: 'Multipart.C141_files' depends on axioms: [propext, Classical.choice, Quot.sound] -/
#guard_msgs (whitespace := lax) in
#print axioms Multipart.C141_files

/-- info: 'Multipart.C141_own' depends on axioms: [propext, Classical.choice, Quot.sound] -/
#guard_msgs (whitespace := lax) in
#print axioms Multipart.C141_own

/-- info: 'Multipart.C142_false' depends on axioms: [propext, Classical.choice, Quot.sound] -/
#guard_msgs (whitespace := lax) in
#print axioms Multipart.C142_false

/-- info: 'Multipart.C142_read_partial' depends on axioms: [propext, Classical.choice, Quot.sound] -/
#guard_msgs (whitespace := lax) in
#print axioms Multipart.C142_read_partial

/-- info: 'Multipart.C142_saves_partial' depends on axioms: [propext, Classical.choice, Quot.sound] -/
#guard_msgs (whitespace := lax) in
#print axioms Multipart.C142_saves_partial

/-- info: 'Multipart.C143_false' depends on axioms: [propext, Classical.choice, Quot.sound] -/
#guard_msgs (whitespace := lax) in
#print axioms Multipart.C143_false

/-- info: 'Multipart.C143_lost' depends on axioms: [propext, Classical.choice, Quot.sound] -/
#guard_msgs (whitespace := lax) in
#print axioms Multipart.C143_lost

/-- info: 'Multipart.C143_read_partial' depends on axioms: [propext, Classical.choice, Quot.sound] -/
#guard_msgs (whitespace := lax) in
#print axioms Multipart.C143_read_partial

/-- info: 'Multipart.C143_refused' depends on axioms: [propext, Classical.choice, Quot.sound] -/
#guard_msgs (whitespace := lax) in
#print axioms Multipart.C143_refused

/-- info: 'Multipart.C143_saved' depends on axioms: [propext, Classical.choice, Quot.sound] -/
#guard_msgs (whitespace := lax) in
#print axioms Multipart.C143_saved

/-- info: 'Multipart.C143_smuggled' depends on axioms: [propext, Classical.choice, Quot.sound] -/
#guard_msgs (whitespace := lax) in
#print axioms Multipart.C143_smuggled

/-- info: 'Multipart.C144_alone' depends on axioms: [propext, Classical.choice, Quot.sound] -/
#guard_msgs (whitespace := lax) in
#print axioms Multipart.C144_alone

/-- info: 'Multipart.C144_files' depends on axioms: [propext, Classical.choice, Quot.sound] -/
#guard_msgs (whitespace := lax) in
#print axioms Multipart.C144_files

/-- info: 'Multipart.C144_own' depends on axioms: [propext, Classical.choice, Quot.sound] -/
#guard_msgs (whitespace := lax) in
#print axioms Multipart.C144_own

/-- info: 'Multipart.C145_examples' depends on axioms: [propext, Classical.choice, Quot.sound] -/
#guard_msgs (whitespace := lax) in
#print axioms Multipart.C145_examples

/-- info: 'Multipart.C145_iron' depends on axioms: [propext, Classical.choice, Quot.sound] -/
#guard_msgs (whitespace := lax) in
#print axioms Multipart.C145_iron

/-- info: 'Multipart.C145_lenient' depends on axioms: [propext, Classical.choice, Quot.sound] -/
#guard_msgs (whitespace := lax) in
#print axioms Multipart.C145_lenient

/-- info: 'Multipart.C145_saves' depends on axioms: [propext, Quot.sound] -/
#guard_msgs (whitespace := lax) in
#print axioms Multipart.C145_saves

/-- info: 'Multipart.C146_answered' depends on axioms: [propext, Classical.choice, Quot.sound] -/
#guard_msgs (whitespace := lax) in
#print axioms Multipart.C146_answered

/-- info: 'Multipart.C146_fewer' depends on axioms: [propext, Classical.choice, Quot.sound] -/
#guard_msgs (whitespace := lax) in
#print axioms Multipart.C146_fewer

/-- info: 'Multipart.C146_files' depends on axioms: [propext, Classical.choice, Quot.sound] -/
#guard_msgs (whitespace := lax) in
#print axioms Multipart.C146_files

/-- info: 'Multipart.C146_own' depends on axioms: [propext, Classical.choice, Quot.sound] -/
#guard_msgs (whitespace := lax) in
#print axioms Multipart.C146_own

/-- info: 'Multipart.C147_examples' depends on axioms: [propext, Classical.choice, Quot.sound] -/
#guard_msgs (whitespace := lax) in
#print axioms Multipart.C147_examples

/-- info: 'Multipart.C147_lenient' depends on axioms: [propext, Classical.choice, Quot.sound] -/
#guard_msgs (whitespace := lax) in
#print axioms Multipart.C147_lenient

/-- info: 'Multipart.C147_saved' depends on axioms: [propext, Classical.choice, Quot.sound] -/
#guard_msgs (whitespace := lax) in
#print axioms Multipart.C147_saved

/-- info: 'Multipart.C147_strict' depends on axioms: [propext, Classical.choice, Quot.sound] -/
#guard_msgs (whitespace := lax) in
#print axioms Multipart.C147_strict

/-- info: 'Multipart.C148_alone' depends on axioms: [propext, Classical.choice, Quot.sound] -/
#guard_msgs (whitespace := lax) in
#print axioms Multipart.C148_alone

/-- info: 'Multipart.C148_growing' depends on axioms: [propext, Classical.choice, Quot.sound] -/
#guard_msgs (whitespace := lax) in
#print axioms Multipart.C148_growing

/-- info: 'Multipart.C148_own_files' depends on axioms: [propext, Classical.choice, Quot.sound] -/
#guard_msgs (whitespace := lax) in
#print axioms Multipart.C148_own_files

/-- info: 'Multipart.C148_own_parts' depends on axioms: [propext, Classical.choice, Quot.sound] -/
#guard_msgs (whitespace := lax) in
#print axioms Multipart.C148_own_parts

/-- info: 'Multipart.C148_result' depends on axioms: [propext, Classical.choice, Quot.sound] -/
#guard_msgs (whitespace := lax) in
#print axioms Multipart.C148_result

/-- info: 'Multipart.C148_same' depends on axioms: [propext, Classical.choice, Quot.sound] -/
#guard_msgs (whitespace := lax) in
#print axioms Multipart.C148_same

/-- info: 'Multipart.C149_beginnings' depends on axioms: [propext, Classical.choice, Quot.sound] -/
#guard_msgs (whitespace := lax) in
#print axioms Multipart.C149_beginnings

/-- info: 'Multipart.C149_others' depends on axioms: [propext, Classical.choice, Quot.sound] -/
#guard_msgs (whitespace := lax) in
#print axioms Multipart.C149_others

/-- info: 'Multipart.C149_use' depends on axioms: [propext, Classical.choice, Quot.sound] -/
#guard_msgs (whitespace := lax) in
#print axioms Multipart.C149_use

/-- info: 'Multipart.C150_field' depends on axioms: [propext, Classical.choice, Quot.sound] -/
#guard_msgs (whitespace := lax) in
#print axioms Multipart.C150_field

/-- info: 'Multipart.C150_kinds' depends on axioms: [propext, Classical.choice, Quot.sound] -/
#guard_msgs (whitespace := lax) in
#print axioms Multipart.C150_kinds

/-- info: 'Multipart.C151_all_saved' depends on axioms: [propext, Classical.choice, Quot.sound] -/
#guard_msgs (whitespace := lax) in
#print axioms Multipart.C151_all_saved

/-- info: 'Multipart.C152_join' depends on axioms: [propext, Classical.choice, Quot.sound] -/
#guard_msgs (whitespace := lax) in
#print axioms Multipart.C152_join

/-- info: 'Multipart.C152_rearrange' depends on axioms: [propext, Classical.choice, Quot.sound] -/
#guard_msgs (whitespace := lax) in
#print axioms Multipart.C152_rearrange

/-- info: 'Multipart.C152_remove_part' depends on axioms: [propext, Classical.choice, Quot.sound] -/
#guard_msgs (whitespace := lax) in
#print axioms Multipart.C152_remove_part

/-- info: 'Multipart.C152_replace_contents' depends on axioms: [propext, Classical.choice, Quot.sound] -/
#guard_msgs (whitespace := lax) in
#print axioms Multipart.C152_replace_contents

/-- info: 'Multipart.C152_saved' depends on axioms: [propext, Classical.choice, Quot.sound] -/
#guard_msgs (whitespace := lax) in
#print axioms Multipart.C152_saved

/-- info: 'Multipart.C153_false' depends on axioms: [propext] -/
#guard_msgs (whitespace := lax) in
#print axioms Multipart.C153_false

/-- info: 'Multipart.C153_lazy_succeeds' depends on axioms: [propext, Classical.choice, Quot.sound] -/
#guard_msgs (whitespace := lax) in
#print axioms Multipart.C153_lazy_succeeds

/-- info: 'Multipart.C153_plain_succeeds' depends on axioms: [propext, Classical.choice, Quot.sound] -/
#guard_msgs (whitespace := lax) in
#print axioms Multipart.C153_plain_succeeds

/-- info: 'Multipart.C153_same_bytes_partial' depends on axioms: [propext, Classical.choice, Quot.sound] -/
#guard_msgs (whitespace := lax) in
#print axioms Multipart.C153_same_bytes_partial

/-- info: 'Multipart.C154_store_and_forward' depends on axioms: [propext, Classical.choice, Quot.sound] -/
#guard_msgs (whitespace := lax) in
#print axioms Multipart.C154_store_and_forward

/-- info: 'Multipart.C155_also_saved' depends on axioms: [propext, Classical.choice, Quot.sound] -/
#guard_msgs (whitespace := lax) in
#print axioms Multipart.C155_also_saved

/-- info: 'Multipart.C155_same_saved' depends on axioms: [propext, Classical.choice, Quot.sound] -/
#guard_msgs (whitespace := lax) in
#print axioms Multipart.C155_same_saved

/-- info: 'Multipart.C155_under_a_name' depends on axioms: [propext, Classical.choice, Quot.sound] -/
#guard_msgs (whitespace := lax) in
#print axioms Multipart.C155_under_a_name

/-- info: 'Multipart.C156_empty' depends on axioms: [propext, Classical.choice, Quot.sound] -/
#guard_msgs (whitespace := lax) in
#print axioms Multipart.C156_empty

/-- info: 'Multipart.C156_false' depends on axioms: [propext, Quot.sound] -/
#guard_msgs (whitespace := lax) in
#print axioms Multipart.C156_false

/-- info: 'Multipart.C156_legal_partial' depends on axioms: [propext, Quot.sound] -/
#guard_msgs (whitespace := lax) in
#print axioms Multipart.C156_legal_partial

/-- info: 'Multipart.C156_utf8_false' depends on axioms: [propext, Quot.sound] -/
#guard_msgs (whitespace := lax) in
#print axioms Multipart.C156_utf8_false

/-- info: 'Multipart.C157_memory' depends on axioms: [propext, Quot.sound] -/
#guard_msgs (whitespace := lax) in
#print axioms Multipart.C157_memory

/-- info: 'Multipart.C157_no_read_ahead' depends on axioms: [propext, Quot.sound] -/
#guard_msgs (whitespace := lax) in
#print axioms Multipart.C157_no_read_ahead

/-- info: 'Multipart.C157_one_at_a_time' depends on axioms: [propext, Quot.sound] -/
#guard_msgs (whitespace := lax) in
#print axioms Multipart.C157_one_at_a_time

/-- info: 'Multipart.C158_full_means_all' depends on axioms: [propext, Classical.choice, Quot.sound] -/
#guard_msgs (whitespace := lax) in
#print axioms Multipart.C158_full_means_all

/-- info: 'Multipart.C158_sized' depends on axioms: [propext, Classical.choice, Quot.sound] -/
#guard_msgs (whitespace := lax) in
#print axioms Multipart.C158_sized

/-- info: 'Multipart.C159_end_partial' depends on axioms: [propext, Classical.choice, Quot.sound] -/
#guard_msgs (whitespace := lax) in
#print axioms Multipart.C159_end_partial

/-- info: 'Multipart.C159_false' depends on axioms: [propext, Classical.choice, Quot.sound] -/
#guard_msgs (whitespace := lax) in
#print axioms Multipart.C159_false

/-- info: 'Multipart.C159_lazy_partial' depends on axioms: [propext, Classical.choice, Quot.sound] -/
#guard_msgs (whitespace := lax) in
#print axioms Multipart.C159_lazy_partial

/-- info: 'Multipart.C160_end_means_all' depends on axioms: [propext, Classical.choice, Quot.sound] -/
#guard_msgs (whitespace := lax) in
#print axioms Multipart.C160_end_means_all

/-- info: 'Multipart.C160_iron' depends on axioms: [propext, Classical.choice, Quot.sound] -/
#guard_msgs (whitespace := lax) in
#print axioms Multipart.C160_iron

/-- info: 'Multipart.C160_iron_entries' depends on axioms: [propext, Classical.choice, Quot.sound] -/
#guard_msgs (whitespace := lax) in
#print axioms Multipart.C160_iron_entries

/-- info: 'Multipart.C160_iron_sized' depends on axioms: [propext, Classical.choice, Quot.sound] -/
#guard_msgs (whitespace := lax) in
#print axioms Multipart.C160_iron_sized

/-- info: 'Multipart.C160_sized' depends on axioms: [propext, Classical.choice, Quot.sound] -/
#guard_msgs (whitespace := lax) in
#print axioms Multipart.C160_sized

/-- info: 'Multipart.C161_confirmed' depends on axioms: [propext, Classical.choice, Quot.sound] -/
#guard_msgs (whitespace := lax) in
#print axioms Multipart.C161_confirmed

/-- info: 'Multipart.C161_rocket' depends on axioms: [propext, Classical.choice, Quot.sound] -/
#guard_msgs (whitespace := lax) in
#print axioms Multipart.C161_rocket

/-- info: 'Multipart.C161_sized' depends on axioms: [propext, Classical.choice, Quot.sound] -/
#guard_msgs (whitespace := lax) in
#print axioms Multipart.C161_sized

/-- info: 'Multipart.C162_any_lazy' depends on axioms: [propext, Classical.choice, Quot.sound] -/
#guard_msgs (whitespace := lax) in
#print axioms Multipart.C162_any_lazy

/-- info: 'Multipart.C162_any_saved' depends on axioms: [propext, Classical.choice, Quot.sound] -/
#guard_msgs (whitespace := lax) in
#print axioms Multipart.C162_any_saved

/-- info: 'Multipart.C162_any_sized' depends on axioms: [propext, Classical.choice, Quot.sound] -/
#guard_msgs (whitespace := lax) in
#print axioms Multipart.C162_any_sized
