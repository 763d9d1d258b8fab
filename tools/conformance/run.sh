cd /verif/lean; mkdir -p /tmp/conf/o
pass=0; fail=0
for f in ${@:-/repo/test/case/*.hext}; do b=$(basename $f .hext); c=/repo/test/case/$b
python3 /tmp/conf/html2tree.py $c.html > /tmp/conf/o/$b.tree
timeout 300 lake env lean --run /tmp/conf/Driver.lean /tmp/conf/o/$b.tree $f > /tmp/conf/o/$b.out 2>/tmp/conf/o/$b.err
if diff <(sort $c.expected) <(sort /tmp/conf/o/$b.out) > /tmp/conf/o/$b.diff; then pass=$((pass+1)); else fail=$((fail+1)); echo FAIL $b; fi
done; echo pass $pass fail $fail
